import Verif.Solver.FitProps
import Verif.Solver.ScaleLemmas
import Verif.Solver.NestedProps
import Verif.Ensemble.ModelProps

/-!
# C99: the units of the properties do not matter

Two models of the same kind, the properties of the second being those of the first in other units
(thousands of euros instead of euros, say).  The second model with the parameter divided by the
product of the units is the first one, and the fit of the second visits the points of the fit of the
first, divided by that product.
-/

namespace Verif

open XR Spec
open scoped NNReal ENNReal

noncomputable section

namespace Fit

/-- A sparse row in other units. -/
def mulRow (a : ℝ≥0) (r : List (ℕ × ℝ≥0)) : List (ℕ × ℝ≥0) := r.map (fun e => (e.1, a * e.2))

/-- `F'` is the model `F` with out-properties multiplied by `a`, in-properties by `b` and pair
properties by `c`; `s` is the product of the factors. -/
inductive Rescaled : ℝ≥0 → Fitter → Fitter → Prop
  | sparseFit (x y z) {a b c : ℝ≥0} (ha : 0 < a) (hb : 0 < b) (hc : 0 < c) :
      Rescaled (a * b * c) (sparseFit x y z)
        (sparseFit (fun i => a * x i) (fun j => b * y j) (fun i j => c * z i j))
  | sparseInv (x y z) {a b c : ℝ≥0} (ha : 0 < a) (hb : 0 < b) (hc : 0 < c) :
      Rescaled (a * b * c) (sparseInv x y z)
        (sparseInv (fun i => a * x i) (fun j => b * y j) (fun i j => c * z i j))
  | denseFit (x y w w') {a b : ℝ≥0} (ha : 0 < a) (hb : 0 < b) :
      Rescaled (a * b) (denseFit x y w) (denseFit (fun i => a * x i) (fun j => b * y j) w')
  | denseInv (x y w w') {a b : ℝ≥0} (ha : 0 < a) (hb : 0 < b) :
      Rescaled (a * b) (denseInv x y w) (denseInv (fun i => a * x i) (fun j => b * y j) w')
  | sparkInv (x y w w') {a b : ℝ≥0} (ha : 0 < a) (hb : 0 < b) :
      Rescaled (a * b) (sparkInv x y w) (sparkInv (fun i => a * x i) (fun j => b * y j) w')
  | sparseMultiFit (x y) (hx : ∀ i, RowSorted (x i)) (hy : ∀ i, RowSorted (y i)) {a b : ℝ≥0}
      (ha : 0 < a) (hb : 0 < b) :
      Rescaled (a * b) (sparseMultiFit x y)
        (sparseMultiFit (fun i => mulRow a (x i)) (fun j => mulRow b (y j)))
  | sparseMultiInv (x y) (hx : ∀ i, RowSorted (x i)) (hy : ∀ i, RowSorted (y i)) {a b : ℝ≥0}
      (ha : 0 < a) (hb : 0 < b) :
      Rescaled (a * b) (sparseMultiInv x y)
        (sparseMultiInv (fun i => mulRow a (x i)) (fun j => mulRow b (y j)))
  | denseMultiFit (L x y) {a b : ℝ≥0} (ha : 0 < a) (hb : 0 < b) :
      Rescaled (a * b) (denseMultiFit L x y)
        (denseMultiFit L (fun i k => a * x i k) (fun j k => b * y j k))
  | denseMultiInv (L x y) {a b : ℝ≥0} (ha : 0 < a) (hb : 0 < b) :
      Rescaled (a * b) (denseMultiInv L x y)
        (denseMultiInv L (fun i k => a * x i k) (fun j k => b * y j k))

private theorem sorted_mul {r : List (ℕ × ℝ≥0)} (a : ℝ≥0) (h : RowSorted r) :
    RowSorted (mulRow a r) := by
  unfold RowSorted mulRow
  rw [List.pairwise_map]
  exact h

private theorem sorted_enn {r : List (ℕ × ℝ≥0)} (h : RowSorted r) : RowSorted (rowENN r) := by
  unfold RowSorted rowENN
  rw [List.pairwise_map]
  exact h

private theorem entry_enn (r : List (ℕ × ℝ≥0)) (k : ℕ) :
    entry (rowENN r) k = ((entry r k : ℝ≥0) : ℝ≥0∞) := by
  unfold rowENN
  induction r with
  | nil => exact (ENNReal.coe_zero).symm
  | cons a t ih =>
    rw [List.map_cons, entry_cons, entry_cons, ih]
    split_ifs <;> rfl

private theorem entry_mul (a : ℝ≥0) (r : List (ℕ × ℝ≥0)) (k : ℕ) :
    entry (mulRow a r) k = a * entry r k := by
  unfold mulRow
  induction r with
  | nil => exact (mul_zero a).symm
  | cons e t ih =>
    rw [List.map_cons, entry_cons, ih]
    obtain ⟨i, v⟩ := e
    rw [entry_cons]
    split_ifs <;> rfl

private theorem lt_enn {r : List (ℕ × ℝ≥0)} {L : ℕ} (h : ∀ e ∈ r, e.1 < L) :
    ∀ e ∈ rowENN r, e.1 < L := by
  intro e he
  obtain ⟨e', h', rfl⟩ := List.mem_map.1 he
  exact h e' h'

private theorem lt_mul {r : List (ℕ × ℝ≥0)} {L : ℕ} (a : ℝ≥0) (h : ∀ e ∈ r, e.1 < L) :
    ∀ e ∈ mulRow a r, e.1 < L := by
  intro e he
  obtain ⟨e', h', rfl⟩ := List.mem_map.1 he
  exact h e' h'

private theorem units2 {a b : ℝ≥0} (ha : 0 < a) (hb : 0 < b) (d x y : ℝ≥0∞) :
    d / ((a * b : ℝ≥0) : ℝ≥0∞) * (a * x) * (b * y) = d * x * y := by
  have h : ((a * b : ℝ≥0) : ℝ≥0∞)⁻¹ * ((a * b : ℝ≥0) : ℝ≥0∞) = 1 :=
    ENNReal.inv_mul_cancel (by simpa using ⟨ha.ne', hb.ne'⟩) ENNReal.coe_ne_top
  calc _ = d * x * y * (((a * b : ℝ≥0) : ℝ≥0∞)⁻¹ * ((a * b : ℝ≥0) : ℝ≥0∞)) := by
        rw [div_eq_mul_inv, ENNReal.coe_mul]; ring
    _ = _ := by rw [h, mul_one]

private theorem units3 {a b c : ℝ≥0} (ha : 0 < a) (hb : 0 < b) (hc : 0 < c) (d x y z : ℝ≥0∞) :
    d / ((a * b * c : ℝ≥0) : ℝ≥0∞) * (a * x) * (b * y) * (c * z) = d * x * y * z := by
  have h : ((a * b * c : ℝ≥0) : ℝ≥0∞)⁻¹ * ((a * b * c : ℝ≥0) : ℝ≥0∞) = 1 :=
    ENNReal.inv_mul_cancel (by simpa using ⟨⟨ha.ne', hb.ne'⟩, hc.ne'⟩) ENNReal.coe_ne_top
  calc _ = d * x * y * z * (((a * b * c : ℝ≥0) : ℝ≥0∞)⁻¹ * ((a * b * c : ℝ≥0) : ℝ≥0∞)) := by
        rw [div_eq_mul_inv, ENNReal.coe_mul, ENNReal.coe_mul]; ring
    _ = _ := by rw [h, mul_one]

namespace Rescaled

variable {s : ℝ≥0} {F F' : Fitter}

theorem pos (h : Rescaled s F F') : 0 < s := by
  cases h <;> positivity

theorem left (h : Rescaled s F F') : IsFitter F := by
  cases h with
  | sparseFit => exact .sparseFit _ _ _
  | sparseInv => exact .sparseInv _ _ _
  | denseFit => exact .denseFit _ _ _
  | denseInv => exact .denseInv _ _ _
  | sparkInv => exact .sparkInv _ _ _
  | sparseMultiFit x y hx hy => exact .sparseMultiFit _ _ hx hy
  | sparseMultiInv x y hx hy => exact .sparseMultiInv _ _ hx hy
  | denseMultiFit => exact .denseMultiFit _ _ _
  | denseMultiInv => exact .denseMultiInv _ _ _

theorem right (h : Rescaled s F F') : IsFitter F' := by
  cases h with
  | sparseFit => exact .sparseFit _ _ _
  | sparseInv => exact .sparseInv _ _ _
  | denseFit => exact .denseFit _ _ _
  | denseInv => exact .denseInv _ _ _
  | sparkInv => exact .sparkInv _ _ _
  | sparseMultiFit x y hx hy =>
    exact .sparseMultiFit _ _ (fun i => sorted_mul _ (hx i)) (fun i => sorted_mul _ (hy i))
  | sparseMultiInv x y hx hy =>
    exact .sparseMultiInv _ _ (fun i => sorted_mul _ (hx i)) (fun i => sorted_mul _ (hy i))
  | denseMultiFit => exact .denseMultiFit _ _ _
  | denseMultiInv => exact .denseMultiInv _ _ _

end Rescaled

variable {s : ℝ≥0} {F F' : Fitter}

/-- **C99**, link probabilities: the model in other units with the parameter divided by the product of
the units has the link probabilities of the original, for every parameter including infinity. -/
theorem C99_probability (h : Rescaled s F F') (d : ℝ≥0∞) (i j : ℕ) :
    (F'.ens (d / s)).p i j = (F.ens d).p i j := by
  cases h with
  | sparseFit x y z ha hb hc =>
    refine ((Ens.Is.sparseFit _ _ _ _).p_eq i j).trans
      (Eq.trans ?_ ((Ens.Is.sparseFit _ _ _ _).p_eq i j).symm)
    simp only [toENN, ENNReal.coe_mul (_ : ℝ≥0) (x _), ENNReal.coe_mul _ (y _),
      ENNReal.coe_mul _ (z _ _), units3 ha hb hc]
  | sparseInv x y z ha hb hc =>
    refine ((Ens.Is.sparseInv _ _ _ _).p_eq i j).trans
      (Eq.trans ?_ ((Ens.Is.sparseInv _ _ _ _).p_eq i j).symm)
    simp only [toENN, ENNReal.coe_mul (_ : ℝ≥0) (x _), ENNReal.coe_mul _ (y _),
      ENNReal.coe_mul _ (z _ _), units3 ha hb hc]
  | denseFit x y w w' ha hb =>
    refine ((Ens.Is.denseFit _ _ _ _).p_eq i j).trans
      (Eq.trans ?_ ((Ens.Is.denseFit _ _ _ _).p_eq i j).symm)
    simp only [toENN, ENNReal.coe_mul (_ : ℝ≥0) (x _), ENNReal.coe_mul _ (y _), units2 ha hb]
  | denseInv x y w w' ha hb =>
    refine ((Ens.Is.denseInv _ _ _ _).p_eq i j).trans
      (Eq.trans ?_ ((Ens.Is.denseInv _ _ _ _).p_eq i j).symm)
    simp only [toENN, ENNReal.coe_mul (_ : ℝ≥0) (x _), ENNReal.coe_mul _ (y _), units2 ha hb]
  | sparkInv x y w w' ha hb =>
    refine ((Ens.Is.sparkInv _ _ _ _).p_eq i j).trans
      (Eq.trans ?_ ((Ens.Is.sparkInv _ _ _ _).p_eq i j).symm)
    simp only [toENN, ENNReal.coe_mul (_ : ℝ≥0) (x _), ENNReal.coe_mul _ (y _), units2 ha hb]
  | sparseMultiFit x y hx hy ha hb =>
    obtain ⟨N, b1, b2, -, -, -⟩ := sparse_row (x i) (y j)
    have b1' : ∀ e ∈ x i, e.1 < N := fun e he => b1 (e.1, fin e.2) (List.mem_map.2 ⟨e, he, rfl⟩)
    have b2' : ∀ e ∈ y j, e.1 < N := fun e he => b2 (e.1, fin e.2) (List.mem_map.2 ⟨e, he, rfl⟩)
    refine (sparse_multiFit_p_ij (fun _ => d / _) (sorted_enn (sorted_mul _ (hx i)))
      (sorted_enn (sorted_mul _ (hy j))) (lt_enn (lt_mul _ b1')) (lt_enn (lt_mul _ b2'))).trans
      (Eq.trans ?_ (sparse_multiFit_p_ij (fun _ => d) (sorted_enn (hx i)) (sorted_enn (hy j)) (lt_enn b1')
        (lt_enn b2')).symm)
    simp only [noneFit, entry_enn, entry_mul, ENNReal.coe_mul _ (entry (x _) _),
      ENNReal.coe_mul _ (entry (y _) _), units2 ha hb]
  | sparseMultiInv x y hx hy ha hb =>
    obtain ⟨N, b1, b2, -, -, -⟩ := sparse_row (x i) (y j)
    have b1' : ∀ e ∈ x i, e.1 < N := fun e he => b1 (e.1, fin e.2) (List.mem_map.2 ⟨e, he, rfl⟩)
    have b2' : ∀ e ∈ y j, e.1 < N := fun e he => b2 (e.1, fin e.2) (List.mem_map.2 ⟨e, he, rfl⟩)
    refine (sparse_multiInv_p_ij (fun _ => d / _) (sorted_enn (sorted_mul _ (hx i)))
      (sorted_enn (sorted_mul _ (hy j))) (lt_enn (lt_mul _ b1')) (lt_enn (lt_mul _ b2'))).trans
      (Eq.trans ?_ (sparse_multiInv_p_ij (fun _ => d) (sorted_enn (hx i)) (sorted_enn (hy j)) (lt_enn b1')
        (lt_enn b2')).symm)
    simp only [noneInv, entry_enn, entry_mul, ENNReal.coe_mul _ (entry (x _) _),
      ENNReal.coe_mul _ (entry (y _) _), units2 ha hb]
  | denseMultiFit L x y ha hb =>
    refine ((Ens.Is.denseMultiFit _ _ _ _).p_eq i j).trans
      (Eq.trans ?_ ((Ens.Is.denseMultiFit _ _ _ _).p_eq i j).symm)
    simp only [toENN, ENNReal.coe_mul (_ : ℝ≥0) (x _ _), ENNReal.coe_mul _ (y _ _), units2 ha hb]
  | denseMultiInv L x y ha hb =>
    refine ((Ens.Is.denseMultiInv _ _ _ _).p_eq i j).trans
      (Eq.trans ?_ ((Ens.Is.denseMultiInv _ _ _ _).p_eq i j).symm)
    simp only [toENN, ENNReal.coe_mul (_ : ℝ≥0) (x _ _), ENNReal.coe_mul _ (y _ _), units2 ha hb]

private theorem coherent {F : Fitter} (hF : IsFitter F) (d : ℝ≥0∞) : (F.ens d).Coherent :=
  Ens.isModel_coherent (Fitter.ens_le hF (le_refl d)).isModel.1

/-- **C99**, all queries: expected number of edges, expected degrees, likelihood of every graph and the
samples drawn with the same random numbers are those of the original. -/
theorem C99_queries (h : Rescaled s F F') (d : ℝ≥0∞) (n : ℕ) (sl : Bool) :
    (F'.ens (d / s)).exp_edges n sl = (F.ens d).exp_edges n sl ∧
    (∀ i < n, ((F'.ens (d / s)).exp_degrees n sl).exp_d_out i
        = ((F.ens d).exp_degrees n sl).exp_d_out i ∧
      ((F'.ens (d / s)).exp_degrees n sl).exp_d_in i = ((F.ens d).exp_degrees n sl).exp_d_in i ∧
      ((F'.ens (d / s)).exp_degrees n sl).exp_d i = ((F.ens d).exp_degrees n sl).exp_d i) ∧
    (∀ G, (F'.ens (d / s)).likelihood n (linkOf G) sl = (F.ens d).likelihood n (linkOf G) sl) ∧
    ∀ u, (F'.ens (d / s)).binary_sample_stream n sl u = (F.ens d).binary_sample_stream n sl u := by
  have hc := coherent h.left d
  have hc' := coherent h.right (d / s)
  have hp : (F'.ens (d / s)).prob = (F.ens d).prob :=
    funext fun e => congrArg XR.toReal (C99_probability h d e.1 e.2)
  refine ⟨?_, fun i hi => ?_, fun G => ?_, fun u => ?_⟩
  · rw [C09_expected_num_edges hc, C09_expected_num_edges hc', hp]
  · obtain ⟨h1, h2, h3⟩ := C10_expected_degrees hc n sl i hi
    obtain ⟨h1', h2', h3'⟩ := C10_expected_degrees hc' n sl i hi
    rw [h1, h2, h3, h1', h2', h3', hp]
    exact ⟨rfl, rfl, rfl⟩
  · rw [(C12_log_likelihood hc n sl G).1, (C12_log_likelihood hc' n sl G).1, hp]
  · rw [binary_sample_stream_eq, binary_sample_stream_eq, binary_sample_eq, binary_sample_eq]
    refine List.filter_congr fun e _ => ?_
    rw [C99_probability h]

private theorem coe_div (h : Rescaled s F F') (d : ℝ≥0) :
    ((d / s : ℝ≥0) : ℝ≥0∞) = (d : ℝ≥0∞) / s := ENNReal.coe_div h.pos.ne'

/-- The expected number of edges as a function of the parameter. -/
private theorem obj_eq (h : Rescaled s F F') (n : ℕ) (sl : Bool) {d : ℝ} (hd : 0 ≤ d) :
    F'.obj h.right n sl (d / s) = F.obj h.left n sl d := by
  lift d to ℝ≥0 using hd
  have h1 := Fitter.exp_edges h.right n sl (d / s)
  rw [coe_div h, (C99_queries h _ n sl).1, Fitter.exp_edges h.left] at h1
  have h2 := fin_inj.1 h1
  rw [NNReal.coe_div] at h2
  exact h2.symm

private theorem obj_deriv {F : Fitter} (hF : IsFitter F) (n : ℕ) (sl : Bool) {d : ℝ} (hd : 0 ≤ d) :
    HasDerivAt (F.obj hF n sl) (F.objDer hF n sl d) d :=
  HasDerivAt.fun_sum fun e _ => (F.pairLink hF e).link.deriv d hd

private theorem objDer_eq (h : Rescaled s F F') (n : ℕ) (sl : Bool) {d : ℝ} (hd : 0 ≤ d) :
    F'.objDer h.right n sl (d / s) = s * F.objDer h.left n sl d := by
  have hs : (0 : ℝ) < s := h.pos
  have h1 : HasDerivWithinAt (fun t => F'.obj h.right n sl (t / s))
      (F'.objDer h.right n sl (d / s) * (1 / s)) (Set.Ici 0) d := by
    have := (obj_deriv h.right n sl (div_nonneg hd hs.le)).comp d
      ((hasDerivAt_id d).div_const (s : ℝ))
    exact this.hasDerivWithinAt
  have h2 : HasDerivWithinAt (fun t => F'.obj h.right n sl (t / s))
      (F.objDer h.left n sl d) (Set.Ici 0) d :=
    (obj_deriv h.left n sl hd).hasDerivWithinAt.congr (fun t ht => obj_eq h n sl ht)
      (obj_eq h n sl hd)
  have := (uniqueDiffOn_Ici (0 : ℝ) d hd).eq_deriv _ h1 h2
  rw [← this]
  field_simp

/-- The derivative is positive as soon as one link is possible. -/
private theorem objDer_pos {F : Fitter} (hF : IsFitter F) {n : ℕ} {sl : Bool}
    (hl : 0 < F.numLinkable n sl) {d : ℝ} (hd : 0 ≤ d) : 0 < F.objDer hF n sl d := by
  classical
  unfold Fitter.numLinkable at hl
  obtain ⟨e, he⟩ := Finset.card_pos.1 hl
  rw [Finset.mem_filter] at he
  have hO := Fitter.isObj hF n sl
  refine lt_of_le_of_ne (hO.nonneg d hd) fun h0 => ?_
  have h1 := hO.concave d (d + 1) hd (by linarith)
  have h2 := total_strict (S := Law.pairs n sl) (P := F.val hF)
    (fun e _ => (F.pairLink hF e).link) ⟨e, he⟩ hd (by linarith : d < d + 1)
  change F.obj hF n sl d < F.obj hF n sl (d + 1) at h2
  rw [← h0] at h1
  linarith

/-- **C99**, the solver: whatever objective function of the two models it is given, from corresponding
starting points the fit of the model in other units ends with the corresponding solution.  All points
visited are divided by the product of the units; the number of iterations, the values, residuals,
relative changes and flags are the same. -/
theorem C99_solver (h : Rescaled s F F') {n : ℕ} {sl : Bool} (hl : 0 < F.numLinkable n sl)
    {func func' : XR → XR × XR} (hf : F.Objective n sl func) (hf' : F'.Objective n sl func')
    {m : ℝ} {o : Opts} (hat : 0 < o.atol) (hrt : 0 ≤ o.rtol) (hm : 0 ≤ m) (x0 : ℝ≥0) :
    ∃ sol, Solver.solve (cfg func m o) (fin x0) = .ok sol ∧
      Solver.solve (cfg func' m o) (fin (x0 / s : ℝ≥0)) = .ok (sol.scale (s : ℝ)⁻¹) ∧
      ∃ d : ℝ≥0, sol.x = fin d ∧ (sol.scale (s : ℝ)⁻¹).x = fin (d / s : ℝ≥0) := by
  have hs : (0 : ℝ) < s := h.pos
  obtain ⟨sol, h1, h2, -, d, h3, -⟩ := fit_total h.left hf hat hrt hm x0
  refine ⟨sol, h1, ?_, d, h3, ?_⟩
  · have key := Solver.solve_scale (inv_pos.2 hs) (func' := func') h1 ?_
    · convert key using 1
      · rw [show scaleX (s : ℝ)⁻¹ (fin x0) = fin ((x0 / s : ℝ≥0) : ℝ) from ?_]
        · congr 1
          simp [cfg, scaleX]
        · simp [scaleX, div_eq_inv_mul]
    · intro x hx
      obtain ⟨r, rfl⟩ := h2 x hx
      have e1 : func (fin r) = (fin (F.obj h.left n sl r), fin (F.objDer h.left n sl r)) :=
        hf.rep (hF := h.left) r r.2
      have e2 : func' (fin ((r : ℝ) / s)) = (fin (F'.obj h.right n sl (r / s)),
          fin (F'.objDer h.right n sl (r / s))) :=
        hf'.rep (hF := h.right) (r / s) (div_nonneg r.2 hs.le)
      have hp := objDer_pos h.left hl r.2
      constructor
      · show func' (scaleX (s : ℝ)⁻¹ (fin r)) = ((func (fin r)).1, scaleX _ (func (fin r)).2)
        rw [show scaleX (s : ℝ)⁻¹ (fin r) = fin ((r : ℝ) / s) by simp [scaleX, div_eq_inv_mul],
          e1, e2, obj_eq h n sl (NNReal.coe_nonneg r), objDer_eq h n sl (NNReal.coe_nonneg r)]
        simp [scaleX]
      · show (func (fin r)).2.isZero = false
        rw [e1]
        simpa [isZero] using hp.ne'
  · show scaleX _ sol.x = _
    rw [h3]
    simp [scaleX, div_eq_inv_mul]

/-- **C99**, `fit` of the single-layer models from corresponding starting points, and from the default
one: the fitted models are the same up to the units of the parameter. -/
theorem C99_fit (h : Rescaled s F F') {n : ℕ} {sl : Bool} (hl : 0 < F.numLinkable n sl)
    {m : ℝ} {o : Opts} (hat : 0 < o.atol) (hrt : 0 ≤ o.rtol) (hm : 0 ≤ m) :
    (∀ (x0 : ℝ≥0) (b b' : Bool), ∃ sol, ∃ d : ℝ≥0,
      fitSingle (F.func n sl) (some m) (.scalar (fin x0) b) .density o = .ok sol ∧
      fitSingle (F'.func n sl) (some m) (.scalar (fin (x0 / s : ℝ≥0)) b') .density o
        = .ok (sol.scale (s : ℝ)⁻¹) ∧
      sol.x = fin d ∧ (sol.scale (s : ℝ)⁻¹).x = fin (d / s : ℝ≥0) ∧
      ∀ i j, (F'.ens (d / s : ℝ≥0)).p i j = (F.ens d).p i j) ∧
    ∃ sol, ∃ d : ℝ≥0, fitSingle (F.func n sl) (some m) .none .density o = .ok sol ∧
      fitSingle (F'.func n sl) (some m) .none .density o = .ok (sol.scale (s : ℝ)⁻¹) ∧
      sol.x = fin d ∧ (sol.scale (s : ℝ)⁻¹).x = fin (d / s : ℝ≥0) ∧
      ∀ i j, (F'.ens (d / s : ℝ≥0)).p i j = (F.ens d).p i j := by
  have hn : ∀ x : ℝ≥0, anyNeg [fin (x : ℝ)] = false := fun x => by simp [anyNeg, zero_def]
  constructor
  · intro x0 b b'
    obtain ⟨sol, h1, h2, d, h3, h4⟩ :=
      C99_solver h hl (agree_self F n sl) (agree_self F' n sl) hat hrt hm x0
    refine ⟨sol, d, ?_, ?_, h3, h4, fun i j => ?_⟩
    · simp only [fitSingle, X0.single, hn, h1]
      rfl
    · simp only [fitSingle, X0.single, hn, h2]
      rfl
    · rw [coe_div h, C99_probability h]
  · obtain ⟨sol, h1, h2, d, h3, h4⟩ :=
      C99_solver h hl (agree_self F n sl) (agree_self F' n sl) hat hrt hm 0
    rw [zero_div, NNReal.coe_zero] at h2
    rw [NNReal.coe_zero] at h1
    have h0 := hn 0
    rw [NNReal.coe_zero] at h0
    refine ⟨sol, d, ?_, ?_, h3, h4, fun i j => ?_⟩
    · simp only [fitSingle, X0.single, zero_def, h0, h1]
      rfl
    · simp only [fitSingle, X0.single, zero_def, h0, h2]
      rfl
    · rw [coe_div h, C99_probability h]

/-- **C99**, `fit` of the multi-layer models with one shared parameter. -/
theorem C99_fit_shared (h : Rescaled s F F') {n : ℕ} {sl : Bool} (hl : 0 < F.numLinkable n sl)
    {M M' : MultiModel} (hM : F.Objective n sl M.func) (hM' : F'.Objective n sl M'.func)
    (hp : M.per_label = false) (hp' : M'.per_label = false) (hL : M'.num_labels = M.num_labels)
    (hpos : 0 < M.num_labels) {m : ℝ} (he : M.num_edges = some m) (he' : M'.num_edges = some m)
    {o : Opts} (hat : 0 < o.atol) (hrt : 0 ≤ o.rtol) (hm : 0 ≤ m) (x0 : ℝ≥0) (b b' : Bool) :
    ∃ sol, ∃ d : ℝ≥0,
      fitMulti M (.scalar (fin x0) b) .density o
        = .ok ⟨List.replicate M.num_labels (fin d), [sol]⟩ ∧
      fitMulti M' (.scalar (fin (x0 / s : ℝ≥0)) b') .density o
        = .ok ⟨List.replicate M.num_labels (fin (d / s : ℝ≥0)), [sol.scale (s : ℝ)⁻¹]⟩ ∧
      ∀ i j, (F'.ens (d / s : ℝ≥0)).p i j = (F.ens d).p i j := by
  have hn : ∀ x : ℝ≥0, anyNeg (List.replicate M.num_labels (fin (x : ℝ))) = false := fun x => by
    simp [anyNeg, zero_def]
  have hg : ∀ x : ℝ≥0, (List.replicate M.num_labels (fin (x : ℝ))).getD 0 0 = fin x := fun x => by
    obtain ⟨k, hk⟩ : ∃ k, M.num_labels = k + 1 := ⟨M.num_labels - 1, by omega⟩
    rw [hk, List.replicate_succ]
    rfl
  obtain ⟨sol, h1, h2, d, h3, h4⟩ := C99_solver h hl hM hM' hat hrt hm x0
  refine ⟨sol, d, ?_, ?_, fun i j => ?_⟩
  · simp only [fitMulti, X0.multi, List.length_replicate, hn, hp, he, hg, h1, Except.mapError, h3]
    simp
  · simp only [fitMulti, X0.multi, List.length_replicate, hL, hn, hp', he', hg, h2,
      Except.mapError, h4]
    simp
  · rw [coe_div h, C99_probability h]

/-- Two vertices with unit properties, in units of a thousand: the hypotheses hold. -/
example : ∃ sol, ∃ d : ℝ≥0,
    fitSingle (exF.func 2 false) (some 1) .none .density ⟨1, 0, 3⟩ = .ok sol ∧
    fitSingle ((denseFit (fun _ => 1000 * 1) (fun _ => 1000 * 1) 0).func 2 false) (some 1) .none
      .density ⟨1, 0, 3⟩ = .ok (sol.scale ((1000 * 1000 : ℝ≥0) : ℝ)⁻¹) ∧
    sol.x = fin d ∧
    (sol.scale ((1000 * 1000 : ℝ≥0) : ℝ)⁻¹).x = fin (d / (1000 * 1000) : ℝ≥0) := by
  have hr : Rescaled (1000 * 1000) exF (denseFit (fun _ => 1000 * 1) (fun _ => 1000 * 1) 0) :=
    .denseFit _ _ _ _ (by norm_num) (by norm_num)
  have : 0 < exF.numLinkable 2 false := by
    classical
    unfold Fitter.numLinkable
    refine Finset.card_pos.2 ⟨(0, 1), Finset.mem_filter.2 ⟨by decide, one_ne_zero, one_ne_zero⟩⟩
  obtain ⟨sol, d, h1, h2, h3, h4, -⟩ :=
    (C99_fit hr this (m := 1) (o := ⟨1, 0, 3⟩) one_pos le_rfl zero_le_one).2
  exact ⟨sol, d, h1, h2, h3, h4⟩

end Fit

end

end Verif
