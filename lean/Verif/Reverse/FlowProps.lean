import Verif.Reverse.FitProps
import Verif.Flow.Props

/-!
# C100: whole runs on the reversed edge table

Exchanging the columns `src` and `dst` of the edge table.
-/

namespace Verif.Reverse

open XR Spec Graph Flow
open scoped NNReal ENNReal

noncomputable section

variable {ι γ : Type}

/-- The row with source and destination exchanged. -/
def flip {V : Type} (r : Row ι V) : Row ι V := ⟨r.dst, r.src, r.val⟩

/-- The graph object with the transposed adjacency matrix. -/
def transpose (g : Obj ι γ ℝ) : Obj ι γ ℝ := { g with adj := fun i j => g.adj j i }

section Matrix

variable {V : Type} [Dtype V]

omit [Dtype V] in
private theorem fold_flip (f : V → V → V) (rows : List (Row ℕ V)) (A B : Mat V)
    (h : ∀ i j, B i j = A j i) (i j : ℕ) :
    (rows.map flip).foldl (fun A r => fun i j => if i = r.src ∧ j = r.dst then f (A i j) r.val
      else A i j) B i j =
    rows.foldl (fun A r => fun i j => if i = r.src ∧ j = r.dst then f (A i j) r.val
      else A i j) A j i := by
  induction rows generalizing A B with
  | nil => exact h i j
  | cons r t ih =>
    refine ih _ _ fun i j => ?_
    simp only [flip, h, and_comm]

private theorem assign_flip (rows : List (Row ℕ V)) (i j : ℕ) :
    assign (rows.map flip) i j = assign rows j i :=
  fold_flip (fun _ v => v) rows _ _ (fun _ _ => rfl) i j

private theorem coo_flip (rows : List (Row ℕ V)) (i j : ℕ) :
    coo (rows.map flip) i j = coo rows j i :=
  fold_flip Dtype.add rows _ _ (fun _ _ => rfl) i j

end Matrix

variable [LinearOrder ι] [LinearOrder γ]

private theorem toInternal_flip (d : List (ι × ℕ)) (r : Row ι ℝ) :
    toInternal d (flip r) = (toInternal d r).map flip := by
  unfold toInternal flip
  cases d.lookup r.src <;> cases d.lookup r.dst <;> rfl

omit [LinearOrder γ] in
private theorem edgesOf_flip (v : List (ι × γ)) (e : List (Row ι ℝ)) :
    Graph.edgesOf v (e.map flip) = (Graph.edgesOf v e).map flip := by
  unfold Graph.edgesOf
  rw [List.filterMap_map, List.map_filterMap]
  exact congrArg (fun f => List.filterMap f e) (funext fun r => toInternal_flip _ r)

private theorem base_flip (v : List (ι × γ)) (e : List (Row ι ℝ)) :
    base v (e.map flip) =
      (base v e).map (fun b => (⟨b.num_vertices, b.id_dict, b.group_dict, b.groups,
        b.edges.map flip⟩ : Base ι γ ℝ)) := by
  rw [base_eq, base_eq, edgesOf_flip]
  have h1 : (∀ r ∈ e.map flip, r.src ∈ v.map Prod.fst ∧ r.dst ∈ v.map Prod.fst) ↔
      ∀ r ∈ e, r.src ∈ v.map Prod.fst ∧ r.dst ∈ v.map Prod.fst := by
    simp only [List.forall_mem_map, flip, and_comm]
  have h2 : ((Graph.edgesOf v e).map flip).all (fun r => Dtype.pos r.val) =
      (Graph.edgesOf v e).all (fun r => Dtype.pos r.val) := by
    rw [List.all_map]
    rfl
  simp only [h1, h2]
  split_ifs <;> rfl

/-- **C100**, graphs: the constructor applied to the table with the columns `src` and `dst`
exchanged raises the same exception, or gives the object with the transposed adjacency matrix. -/
theorem C100_build (b : Backend) (v : List (ι × γ)) (e : List (Row ι ℝ)) :
    mkOf b v (e.map flip) = (mkOf b v e).map transpose := by
  cases b
  · unfold mkOf Dense.mk
    rw [base_flip]
    cases base v e with
    | error er => rfl
    | ok c =>
      refine congrArg (fun A => Except.ok (⟨c.num_vertices, c.id_dict, c.group_dict, c.groups, A⟩ :
        Obj ι γ ℝ)) ?_
      funext i j
      exact assign_flip _ i j
  · unfold mkOf Sparse.mk
    rw [base_flip]
    cases base v e with
    | error er => rfl
    | ok c =>
      refine congrArg (fun A => Except.ok (⟨c.num_vertices, c.id_dict, c.group_dict, c.groups, A⟩ :
        Obj ι γ ℝ)) ?_
      funext i j
      exact coo_flip _ i j

private theorem numPairs_flip (e : List (Row ι ℝ)) : numPairs (e.map flip) = numPairs e := by
  unfold numPairs
  have : ((e.map flip).map (fun r => (r.src, r.dst))).toFinset =
      (e.map (fun r => (r.src, r.dst))).toFinset.image Prod.swap := by
    ext p
    simp only [List.mem_toFinset, List.mem_map, Finset.mem_image, flip]
    constructor
    · rintro ⟨_, ⟨r, hr, rfl⟩, rfl⟩
      exact ⟨(r.src, r.dst), ⟨r, hr, rfl⟩, rfl⟩
    · rintro ⟨_, ⟨r, hr, rfl⟩, rfl⟩
      exact ⟨_, ⟨r, hr, rfl⟩, rfl⟩
  rw [this, Finset.card_image_of_injective _ Prod.swap_injective]

omit [LinearOrder ι] [LinearOrder γ] in
private theorem outS_transpose (g : Obj ι γ ℝ) : outS (transpose g) = inS g := rfl

omit [LinearOrder ι] [LinearOrder γ] in
private theorem inS_transpose (g : Obj ι γ ℝ) : inS (transpose g) = outS g := rfl

private theorem fitter_reversed (M : Model) (x y : ℕ → ℝ≥0) :
    Fit.Reversed (M.fitter x y) (M.fitter y x) := by
  cases M
  · exact .sparseFit _ _ _
  · exact .sparseInv _ _ _
  · exact .denseFit _ _ _ _
  · exact .denseInv _ _ _ _

omit [LinearOrder ι] [LinearOrder γ] in
private theorem links_transpose (g : Obj ι γ ℝ) : links (transpose g) = rev (links g) := by
  ext p
  rw [mem_rev]
  unfold links
  rw [Finset.mem_filter, Finset.mem_filter, Finset.mem_product, Finset.mem_product]
  exact and_congr_left' and_comm

omit [LinearOrder γ] in
private theorem like_eq (M : Model) {g : Obj ι γ ℝ} {e : List (Row ι ℝ)} {s : Bool}
    {sol : Solver.Solution} :
    Result.log_likelihood M ⟨g, modelOf g e s, sol⟩ =
      .ok ((Result.ens M ⟨g, modelOf g e s, sol⟩).likelihood g.num_vertices (linkOf (links g)) s) := by
  unfold Result.log_likelihood Method.log_likelihood
  simp only [Method.adjOf, modelOf, Int.toNat_natCast, loopsOf, ne_eq, not_true_eq_false, if_false]
  rfl

variable {M : Model} {v : List (ι × γ)} {e : List (Row ι ℝ)}
  {kw : List (Validate.Key × Validate.Val)} {s : Bool} {o : Fit.Opts}

/-- **C100**, whole runs: with the columns `src` and `dst` exchanged, building, fitting and querying
end with the same exception, or with the same solution, transposed probabilities, the same expected
number of edges and the same log-likelihood of the input graph. -/
theorem C100_run (hkw : Setting kw s) (hat : 0 < o.atol) (hrt : 0 ≤ o.rtol) {x0 : Fit.X0}
    (hx : ∀ w ∈ x0.single.vals, ∃ r : ℝ, w = fin r) (method : Fit.Method)
    (hist hist' : List (Q × Bool)) :
    (∀ er, run M v e hist kw x0 method o = .error er →
      run M v (e.map flip) hist' kw x0 method o = .error er) ∧
    ∀ R, run M v e hist kw x0 method o = .ok R →
      ∃ R', run M v (e.map flip) hist' kw x0 method o = .ok R' ∧
        R'.solution = R.solution ∧ R'.graph = transpose R.graph ∧
        (∀ i j, (R'.ens M).p i j = (R.ens M).p j i) ∧
        R'.expected_num_edges M = R.expected_num_edges M ∧
        R'.log_likelihood M = R.log_likelihood M := by
  have hb := C100_build M.backend v e
  cases hg : mkOf M.backend v e with
  | error er =>
    rw [hg] at hb
    rw [run_error hist _ _ _ hg, run_error hist' _ _ _ hb]
    exact ⟨fun _ h => h, fun _ h => by cases h⟩
  | ok g =>
    rw [hg] at hb
    have hb' : mkOf M.backend v (e.map flip) = .ok (transpose g) := hb
    by_cases hv : v = []
    · subst hv
      rw [run_empty hkw hg, run_empty hkw hb']
      exact ⟨fun _ h => h, fun _ h => by cases h⟩
    have hfit := C100_fit (fitter_reversed M (outS g) (inS g)) (n := g.num_vertices) (b := s) hat
      hrt (num_edges := some (numPairs e : ℝ)) (by rintro m hm; cases hm; exact Nat.cast_nonneg _)
      hx method
    rw [run_eq hkw hg hv, run_eq hkw hb' hv, outS_transpose, inS_transpose, numPairs_flip]
    show (∀ er, _ → (Except.mapError _ (Fit.fitSingle ((M.fitter (inS g) (outS g)).func
      g.num_vertices s) _ _ _ _) >>= _) = _) ∧ ∀ R, _ → ∃ R', (Except.mapError _ (Fit.fitSingle
        ((M.fitter (inS g) (outS g)).func g.num_vertices s) _ _ _ _) >>= _) = _ ∧ _
    rw [hfit]
    cases hs : Fit.fitSingle ((M.fitter (outS g) (inS g)).func g.num_vertices s)
        (some (numPairs e : ℝ)) x0 method o with
    | error er =>
      refine ⟨fun _ h => ?_, fun _ h => ?_⟩
      · simpa [Except.mapError, bind, Except.bind] using h
      · simp [Except.mapError, bind, Except.bind] at h
    | ok sol =>
      refine ⟨fun _ h => ?_, fun R h => ?_⟩
      · simp [Except.mapError, bind, Except.bind] at h
      simp only [Except.mapError, bind, Except.bind, Except.ok.injEq] at h
      subst h
      obtain ⟨d, hd⟩ : ∃ d : ℝ≥0, sol.x = fin d := by
        cases method with
        | density =>
          obtain ⟨d, hd, -⟩ := Fit.C34_converged (isFitter M (outS g) (inS g)) hat hrt
            (Nat.cast_nonneg _) hx hs
          exact ⟨d, hd⟩
        | mle => unfold Fit.fitSingle at hs; simp only at hs; split at hs <;> first | cases hs | split_ifs at hs
        | other => unfold Fit.fitSingle at hs; simp only at hs; split at hs <;> first | cases hs | split_ifs at hs
      have hE : Result.ens M ⟨g, modelOf g e s, sol⟩ = (M.fitter (outS g) (inS g)).ens d := by
        rw [fitter_ens, Fit.ofENN_coe]
        unfold Result.ens
        rw [hd]
        rfl
      have hE' : Result.ens M ⟨transpose g, modelOf (transpose g) (e.map flip) s, sol⟩ =
          (M.fitter (inS g) (outS g)).ens d := by
        rw [fitter_ens, Fit.ofENN_coe]
        unfold Result.ens
        rw [hd]
        rfl
      have hrev := (fitter_reversed M (outS g) (inS g)).ens d
      refine ⟨⟨transpose g, modelOf (transpose g) (e.map flip) s, sol⟩, rfl, rfl, rfl, ?_, ?_, ?_⟩
      · rw [hE, hE']
        exact C100_probability hrev
      · unfold Result.expected_num_edges
        rw [hE, hE']
        exact (C100_queries hrev _ _).1
      · rw [like_eq, like_eq, hE, hE', links_transpose]
        exact congrArg Except.ok ((C100_queries hrev _ _).2.2 _)

/-- One link from 1 to 2: the reversed table is another table, and both are accepted. -/
example : ∃ (v : List (ℕ × ℕ)) (e : List (Row ℕ ℝ)), Table v e ∧ Table v (e.map flip) ∧
    e.map flip ≠ e ∧ v ≠ [] :=
  ⟨[(1, 0), (2, 0)], [⟨1, 2, 3⟩], by simp [Table], by simp [Table, flip], by simp [flip], by simp⟩

end

end Verif.Reverse
