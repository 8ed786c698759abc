import Verif.Solver.FitProps

/-!
# C68: arguments of `fit`
-/

namespace Verif

open XR Spec
open scoped ENNReal NNReal

noncomputable section

namespace Fit

/-- **C68**, single-layer models: `fit` refuses its arguments with a `ValueError` iff the start is
not exactly one number, is not numeric, is negative, the method is not `density`, or the number of
edges is not set.  (Failures of the solver itself are reported as `Err.solver`.) -/
theorem C68_single (func : XR → XR × XR) (num_edges : Option ℝ) (x0 : X0) (method : Method)
    (o : Opts) :
    fitSingle func num_edges x0 method o = .error .valueError ↔
      x0.single.vals.length ≠ 1 ∨ x0.single.numeric = false ∨
      (∃ v ∈ x0.single.vals, ltb v 0 = true) ∨ method ≠ .density ∨ num_edges = none := by
  unfold fitSingle
  simp only
  rcases hx : x0.single with ⟨vals, isInt, numeric⟩
  rcases vals with _ | ⟨v, _ | ⟨w, l⟩⟩
  · simp
  · cases numeric
    · simp
    · by_cases hv : ltb v 0 = true
      · simp [anyNeg, hv]
      · cases method with
        | density =>
          cases num_edges with
          | none => simp
          | some e =>
            cases hs : Solver.solve (cfg func e o) v <;> simp [anyNeg, hv, hs, Except.mapError]
        | mle => simp
        | other => simp
  · simp

/-- **C68**, accepted arguments: the result is that of the solver on `[0, inf]` with the given
start, tolerances and the number of edges as target; the default start is `0`. -/
theorem C68_single_solver (func : XR → XR × XR) (m : ℝ) (o : Opts) :
    (∀ (v : XR) (b : Bool), ltb v 0 = false →
      fitSingle func (some m) (.scalar v b) .density o
        = fitSingle func (some m) (.array [v] b true) .density o ∧
      ∀ sol, fitSingle func (some m) (.scalar v b) .density o = .ok sol ↔
        Solver.solve (.mk func m o.atol o.rtol o.maxiter (fin 0) pinf none none) v = .ok sol) ∧
    fitSingle func (some m) .none .density o = fitSingle func (some m) (.scalar 0 false) .density o := by
  refine ⟨fun v b hv => ⟨rfl, fun sol => ?_⟩, rfl⟩
  simp only [fitSingle, X0.single, anyNeg, List.any_cons, List.any_nil, Bool.or_false, hv,
    Bool.not_true, Bool.false_eq_true, if_false]
  change (Solver.solve (cfg func m o) v).mapError Err.solver = _ ↔
    Solver.solve (cfg func m o) v = _
  cases Solver.solve (cfg func m o) v <;> simp [Except.mapError]

/-- A finite number may be tested with the usual order. -/
theorem ltb_zero_fin (r : ℝ) : ltb (fin r) 0 = true ↔ r < 0 := by
  rw [zero_def, ltb_fin']; simp

/-- **C68**, multi-layer models: `fit` refuses its arguments with a `ValueError` iff the start does
not have one number per label, is not numeric, has a negative number, the method is not `density`,
or the number of edges (per label for `per_label`) is not set. -/
theorem C68_multi (M : MultiModel) (x0 : X0) (method : Method) (o : Opts) :
    fitMulti M x0 method o = .error .valueError ↔
      (x0.multi M.num_labels).vals.length ≠ M.num_labels ∨
      (x0.multi M.num_labels).numeric = false ∨
      (∃ v ∈ (x0.multi M.num_labels).vals, ltb v 0 = true) ∨ method ≠ .density ∨
      (if M.per_label then M.num_edges_label = none else M.num_edges = none) := by
  have hlab : ∀ (e : ℕ → ℝ) (x : Arr) (l : List ℕ) (s : MultiFit),
      l.foldlM (fitLabel M e x o) s ≠ .error .valueError := by
    intro e x l
    induction l with
    | nil => intro s h; simp [pure, Except.pure] at h
    | cons i l ih =>
      intro s h
      simp only [List.foldlM_cons, bind, Except.bind] at h
      split at h
      · rename_i err herr
        simp only [Except.error.injEq] at h
        subst h
        unfold fitLabel at herr
        cases hs : Solver.solve (cfg (M.layer i) (e i) o) (x.vals.getD i 0) <;>
          rw [hs] at herr <;> simp [Except.mapError] at herr
      · exact ih _ h
  have hneg : anyNeg (x0.multi M.num_labels).vals = true ↔
      ∃ v ∈ (x0.multi M.num_labels).vals, ltb v 0 = true := by
    simp [anyNeg]
  unfold fitMulti
  simp only
  by_cases h1 : (x0.multi M.num_labels).vals.length ≠ M.num_labels
  · simp [h1]
  by_cases h2 : (x0.multi M.num_labels).numeric = false
  · simp [h2]
  by_cases h3 : anyNeg (x0.multi M.num_labels).vals = true
  · have h2' : (x0.multi M.num_labels).numeric = true := by simpa using h2
    simp [h1, h2', h3, hneg.1 h3]
  have h3' : ¬ ∃ v ∈ (x0.multi M.num_labels).vals, ltb v 0 = true := fun h => h3 (hneg.2 h)
  have h2' : (x0.multi M.num_labels).numeric = true := by simpa using h2
  rw [if_neg h1, if_neg (by simp [h2']), if_neg h3]
  have hl : ¬ ((x0.multi M.num_labels).vals.length ≠ M.num_labels) := h1
  simp only [h1, h2', h3', false_or, reduceCtorEq]
  cases method with
  | density =>
    simp only [ne_eq, not_true_eq_false, false_or]
    cases hp : M.per_label with
    | true =>
      simp only [if_true]
      cases he : M.num_edges_label with
      | none => simp
      | some e => simpa [fitLabels] using hlab e _ _ _
    | false =>
      simp only [Bool.false_eq_true, if_false]
      cases he : M.num_edges with
      | none => simp
      | some e =>
        simp only
        cases hs : Solver.solve (cfg M.func e o) ((x0.multi M.num_labels).vals.getD 0 0) <;>
          simp [Except.mapError]
  | mle => simp
  | other => simp

/-- **C68**, a scalar start of a multi-layer model is used for every label. -/
theorem C68_multi_scalar (M : MultiModel) (v : XR) (b : Bool) (method : Method) (o : Opts) :
    fitMulti M (.scalar v b) method o
      = fitMulti M (.array (List.replicate M.num_labels v) b true) method o ∧
    fitMulti M .none method o = fitMulti M (.scalar 0 false) method o := ⟨rfl, rfl⟩

/-- A negative start is refused, and so is a start of the wrong length. -/
example (F : Fitter) : fitSingle (F.func 3 true) (some 2) (.scalar (fin (-1)) false) .density
    ⟨1, 0, 10⟩ = .error .valueError ∧
    fitSingle (F.func 3 true) (some 2) (.array [0, 0] false true) .density ⟨1, 0, 10⟩
      = .error .valueError := by
  refine ⟨(C68_single _ _ _ _ _).2 (.inr (.inr (.inl ⟨fin (-1), by simp [X0.single], ?_⟩))),
    (C68_single _ _ _ _ _).2 (.inl (by simp [X0.single]))⟩
  rw [ltb_zero_fin]; norm_num

end Fit

end

end Verif
