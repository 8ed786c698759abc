import Verif.Reverse.Props
import Verif.Solver.CongrLemmas
import Verif.Solver.FitProps

/-!
# C100: the fit of the reversed model

The model with out- and in-properties exchanged is fitted with the same parameter, step by step.
-/

namespace Verif

open XR Spec
open scoped NNReal ENNReal

noncomputable section

namespace Fit

/-- `F'` is the model `F` with out- and in-properties exchanged and pair properties transposed. -/
inductive Reversed : Fitter → Fitter → Prop
  | sparseFit (x y z) : Reversed (sparseFit x y z) (sparseFit y x (fun i j => z j i))
  | sparseInv (x y z) : Reversed (sparseInv x y z) (sparseInv y x (fun i j => z j i))
  | denseFit (x y w w') : Reversed (denseFit x y w) (denseFit y x w')
  | denseInv (x y w w') : Reversed (denseInv x y w) (denseInv y x w')
  | sparkInv (x y w w') : Reversed (sparkInv x y w) (sparkInv y x w')
  | sparseMultiFit (x y) (hx : ∀ i, RowSorted (x i)) (hy : ∀ i, RowSorted (y i)) :
      Reversed (sparseMultiFit x y) (sparseMultiFit y x)
  | sparseMultiInv (x y) (hx : ∀ i, RowSorted (x i)) (hy : ∀ i, RowSorted (y i)) :
      Reversed (sparseMultiInv x y) (sparseMultiInv y x)
  | denseMultiFit (L x y) : Reversed (denseMultiFit L x y) (denseMultiFit L y x)
  | denseMultiInv (L x y) : Reversed (denseMultiInv L x y) (denseMultiInv L y x)

namespace Reversed

variable {F F' : Fitter}

theorem left (h : Reversed F F') : IsFitter F := by
  cases h with
  | sparseFit => exact .sparseFit _ _ _
  | sparseInv => exact .sparseInv _ _ _
  | denseFit => exact .denseFit _ _ _
  | denseInv => exact .denseInv _ _ _
  | sparkInv => exact .sparkInv _ _ _
  | sparseMultiFit x y hx hy => exact .sparseMultiFit _ _ hx hy
  | sparseMultiInv x y hx hy => exact .sparseMultiInv _ _ hx hy
  | denseMultiFit => exact .denseMultiFit _ _ _
  | denseMultiInv => exact .denseMultiInv _ _ _

theorem right (h : Reversed F F') : IsFitter F' := by
  cases h with
  | sparseFit => exact .sparseFit _ _ _
  | sparseInv => exact .sparseInv _ _ _
  | denseFit => exact .denseFit _ _ _
  | denseInv => exact .denseInv _ _ _
  | sparkInv => exact .sparkInv _ _ _
  | sparseMultiFit x y hx hy => exact .sparseMultiFit _ _ hy hx
  | sparseMultiInv x y hx hy => exact .sparseMultiInv _ _ hy hx
  | denseMultiFit => exact .denseMultiFit _ _ _
  | denseMultiInv => exact .denseMultiInv _ _ _

private theorem sorted_enn {r : List (ℕ × ℝ≥0)} (h : RowSorted r) : RowSorted (rowENN r) := by
  unfold RowSorted rowENN
  rw [List.pairwise_map]
  exact h

/-- The ensembles of the two models are reversed for every parameter. -/
theorem ens (h : Reversed F F') (d : ℝ≥0∞) : Ens.Reversed (F.ens d) (F'.ens d) := by
  cases h with
  | sparseFit => exact .sparseFit _ _ _ _
  | sparseInv => exact .sparseInv _ _ _ _
  | denseFit => exact .denseFit _ _ _ _ _
  | denseInv => exact .denseInv _ _ _ _ _
  | sparkInv => exact .sparkInv _ _ _ _ _
  | sparseMultiFit x y hx hy =>
    exact .sparseMultiFit _ _ _ (fun i => sorted_enn (hx i)) (fun i => sorted_enn (hy i))
  | sparseMultiInv x y hx hy =>
    exact .sparseMultiInv _ _ _ (fun i => sorted_enn (hx i)) (fun i => sorted_enn (hy i))
  | denseMultiFit => exact .denseMultiFit _ _ _ _
  | denseMultiInv => exact .denseMultiInv _ _ _ _

end Reversed

end Fit

namespace Reverse

open Fit

variable {F F' : Fitter}

private theorem obj_eq (h : Fit.Reversed F F') (n : ℕ) (b : Bool) {d : ℝ} (hd : 0 ≤ d) :
    F'.obj h.right n b d = F.obj h.left n b d := by
  lift d to ℝ≥0 using hd
  have h1 := Fitter.exp_edges h.right n b d
  rw [(C100_queries (h.ens d) n b).1, Fitter.exp_edges h.left] at h1
  exact (fin_inj.1 h1).symm

private theorem obj_deriv (hF : IsFitter F) (n : ℕ) (b : Bool) {d : ℝ} (hd : 0 ≤ d) :
    HasDerivAt (F.obj hF n b) (F.objDer hF n b d) d :=
  HasDerivAt.fun_sum fun e _ => (F.pairLink hF e).link.deriv d hd

private theorem objDer_eq (h : Fit.Reversed F F') (n : ℕ) (b : Bool) {d : ℝ} (hd : 0 ≤ d) :
    F'.objDer h.right n b d = F.objDer h.left n b d := by
  have h1 : HasDerivWithinAt (F'.obj h.right n b) (F'.objDer h.right n b d) (Set.Ici 0) d :=
    (obj_deriv h.right n b hd).hasDerivWithinAt
  have h2 : HasDerivWithinAt (F'.obj h.right n b) (F.objDer h.left n b d) (Set.Ici 0) d :=
    (obj_deriv h.left n b hd).hasDerivWithinAt.congr (fun t ht => obj_eq h n b ht)
      (obj_eq h n b hd)
  exact (uniqueDiffOn_Ici (0 : ℝ) d hd).eq_deriv _ h1 h2

/-- **C100**, objective: value and derivative handed to the solver are the same. -/
theorem C100_objective (h : Fit.Reversed F F') (n : ℕ) (b : Bool) (d : ℝ≥0) :
    F'.func n b (fin d) = F.func n b (fin d) := by
  have e1 : F.func n b (fin d) = (fin (F.obj h.left n b d), fin (F.objDer h.left n b d)) :=
    Fitter.rep h.left n b d d.2
  have e2 : F'.func n b (fin d) = (fin (F'.obj h.right n b d), fin (F'.objDer h.right n b d)) :=
    Fitter.rep h.right n b d d.2
  rw [e1, e2, obj_eq h n b (NNReal.coe_nonneg d), objDer_eq h n b (NNReal.coe_nonneg d)]

/-- **C100**, the solver: same run on any objectives of the two models. -/
theorem C100_solver (h : Fit.Reversed F F') {n : ℕ} {b : Bool} {func func' : XR → XR × XR}
    (hf : F.Objective n b func) (hf' : F'.Objective n b func') {m : ℝ} {o : Opts}
    (hat : 0 < o.atol) (hrt : 0 ≤ o.rtol) (hm : 0 ≤ m) (x0 : ℝ≥0) :
    Solver.solve (cfg func' m o) (fin x0) = Solver.solve (cfg func m o) (fin x0) := by
  obtain ⟨sol, h1, h2, -⟩ := fit_total h.left hf hat hrt hm x0
  rw [h1]
  refine Solver.solve_congr (func' := func') h1 fun x hx => ?_
  obtain ⟨d, rfl⟩ := h2 x hx
  show func' (fin d) = func (fin d)
  rw [hf' d, hf d, C100_objective h]

private theorem nonneg_of {l : List XR} (hl : ∀ v ∈ l, ∃ r : ℝ, v = fin r) (hn : anyNeg l = false)
    {v : XR} (hv : v ∈ l) : ∃ d : ℝ≥0, v = fin d := by
  obtain ⟨r, rfl⟩ := hl v hv
  unfold anyNeg at hn
  rw [List.any_eq_false] at hn
  have h := hn _ hv
  have hr : 0 ≤ r := by
    by_contra hcon
    exact h (by simpa [zero_def] using not_le.1 hcon)
  exact ⟨⟨r, hr⟩, rfl⟩

/-- **C100**, `fit` of the single-layer models: same solution object or same exception, for every
argument `x0` with finite entries and every method. -/
theorem C100_fit (h : Fit.Reversed F F') {n : ℕ} {b : Bool} {o : Opts} (hat : 0 < o.atol)
    (hrt : 0 ≤ o.rtol) {num_edges : Option ℝ} (hm : ∀ m, num_edges = some m → 0 ≤ m) {x0 : X0}
    (hx : ∀ v ∈ x0.single.vals, ∃ r : ℝ, v = fin r) (method : Method) :
    fitSingle (F'.func n b) num_edges x0 method o = fitSingle (F.func n b) num_edges x0 method o := by
  unfold fitSingle
  dsimp only
  match hv : x0.single.vals with
  | [] => rfl
  | _ :: _ :: _ => rfl
  | [v] =>
    dsimp only
    by_cases h1 : (!x0.single.numeric) = true
    · rw [if_pos h1, if_pos h1]
    rw [if_neg h1, if_neg h1]
    by_cases h2 : anyNeg [v] = true
    · rw [if_pos h2, if_pos h2]
    rw [if_neg h2, if_neg h2]
    cases method with
    | mle => rfl
    | other => rfl
    | density =>
      cases num_edges with
      | none => rfl
      | some m =>
        rw [hv] at hx
        obtain ⟨d, rfl⟩ := nonneg_of hx (by simpa using h2) (List.mem_singleton.2 rfl)
        dsimp only
        rw [C100_solver h (agree_self F n b) (agree_self F' n b) hat hrt (hm m rfl) d]

private theorem getD_mem (l : List XR) (i : ℕ) : l.getD i 0 ∈ l ∨ l.getD i 0 = fin ((0 : ℝ≥0) : ℝ) := by
  rw [List.getD_eq_getElem?_getD]
  by_cases h : i < l.length
  · left
    rw [List.getElem?_eq_getElem h]
    exact List.getElem_mem h
  · right
    rw [List.getElem?_eq_none (not_lt.1 h)]
    simp [zero_def]

/-- **C100**, `fit` of the multi-layer models, with one shared parameter or one per label: `M'` uses
objectives of the reversed models. -/
theorem C100_fit_multi (h : Fit.Reversed F F') {H H' : ℕ → Fitter}
    (hH : ∀ k, Fit.Reversed (H k) (H' k)) {n : ℕ} {b : Bool} {M M' : MultiModel}
    (hf : F.Objective n b M.func) (hf' : F'.Objective n b M'.func)
    (hl : ∀ k, (H k).Objective n b (M.layer k)) (hl' : ∀ k, (H' k).Objective n b (M'.layer k))
    (hL : M'.num_labels = M.num_labels) (hp : M'.per_label = M.per_label)
    (he : M'.num_edges = M.num_edges) (hel : M'.num_edges_label = M.num_edges_label)
    (hm : ∀ m, M.num_edges = some m → 0 ≤ m) (hml : ∀ m, M.num_edges_label = some m → ∀ k, 0 ≤ m k)
    {o : Opts} (hat : 0 < o.atol) (hrt : 0 ≤ o.rtol) {x0 : X0}
    (hx : ∀ v ∈ (x0.multi M.num_labels).vals, ∃ r : ℝ, v = fin r) (method : Method) :
    fitMulti M' x0 method o = fitMulti M x0 method o := by
  unfold fitMulti
  rw [hL, hp, he, hel]
  dsimp only
  by_cases h1 : (x0.multi M.num_labels).vals.length ≠ M.num_labels
  · rw [if_pos h1, if_pos h1]
  rw [if_neg h1, if_neg h1]
  by_cases h2 : (!(x0.multi M.num_labels).numeric) = true
  · rw [if_pos h2, if_pos h2]
  rw [if_neg h2, if_neg h2]
  by_cases h3 : anyNeg (x0.multi M.num_labels).vals = true
  · rw [if_pos h3, if_pos h3]
  rw [if_neg h3, if_neg h3]
  have hv : ∀ i, ∃ d : ℝ≥0, (x0.multi M.num_labels).vals.getD i 0 = fin d := by
    intro i
    rcases getD_mem (x0.multi M.num_labels).vals i with h4 | h4
    · exact nonneg_of hx (by simpa using h3) h4
    · exact ⟨0, h4⟩
  cases method with
  | mle => rfl
  | other => rfl
  | density =>
    dsimp only
    by_cases h5 : M.per_label = true
    · rw [if_pos h5, if_pos h5]
      cases hml' : M.num_edges_label with
      | none => rfl
      | some m =>
        dsimp only
        unfold fitLabels
        rw [hL]
        congr 1
        funext s i
        unfold fitLabel
        obtain ⟨d, hd⟩ := hv i
        rw [hd, C100_solver (hH i) (hl i) (hl' i) hat hrt (hml m hml' i) d]
    · rw [if_neg h5, if_neg h5]
      cases hm' : M.num_edges with
      | none => rfl
      | some m =>
        dsimp only
        obtain ⟨d, hd⟩ := hv 0
        rw [hd, C100_solver h hf hf' hat hrt (hm m hm') d]

/-- The layer functions of the two multi-layer models are objectives of reversed models. -/
example (a c : List (ℕ × ℝ≥0)) (ha : RowSorted a) (hc : RowSorted c) (n : ℕ)
    (han : ∀ e ∈ a, e.1 < n) (hcn : ∀ e ∈ c, e.1 < n) (b : Bool) :
    Fit.Reversed (denseFit (entry a) (entry c) 0) (denseFit (entry c) (entry a) 0) ∧
    (denseFit (entry a) (entry c) 0).Objective n b
      (exp_edges_f_jac_layer MultiFitnessModel.p_jac_ijk (rowN a) (rowN c) b) ∧
    (denseFit (entry c) (entry a) 0).Objective n b
      (exp_edges_f_jac_layer MultiFitnessModel.p_jac_ijk (rowN c) (rowN a) b) :=
  ⟨.denseFit _ _ _ _, agree_layer_fit ha hc han hcn 0 b, agree_layer_fit hc ha hcn han 0 b⟩

end Reverse

end

end Verif
