import Verif.Cond.MeanProps
import Verif.Cond.LikeLemmas

/-! # C56, C57: likelihood of the conditional model, format of the coarse matrix -/

namespace Verif.Cond

open scoped ENNReal NNReal
open XR Spec

section
variable {n M : ℕ} {d : ℝ≥0∞} {x y : ℕ → ℝ≥0} {groups : ℕ → ℕ} {adj g : Mat} {s : Bool}
  {A G : Finset (ℕ × ℕ)}

/-! ## C56 -/

theorem compatible_iff (hA : Stores M adj A) (hApos : ∀ a b, (a, b) ∈ A → 0 < adj.at a b)
    (hG : Stores n g G) (hGpos : ∀ i j, (i, j) ∈ G → 0 < g.at i j) (hg : ∀ i < n, groups i < M) :
    (List.range M).any (fun a => (List.range M).any (fun b =>
        decide (0 < aggAt (mk n M d x y groups adj s) g a b) != decide (0 < adj.at a b))) = true
      ↔ Law.merge groups G ≠ A := by
  have h1 : ∀ a < M, ∀ b, 0 < adj.at a b ↔ (a, b) ∈ A := by
    intro a ha b
    constructor
    · intro h
      by_contra hc
      rw [at_of_notMem (fun hb => hc ((hA.mem a b).2 ⟨ha, hb⟩))] at h
      exact lt_irrefl _ h
    · exact hApos a b
  have hmM : ∀ a b, (a, b) ∈ Law.merge groups G → a < M ∧ b < M := by
    intro a b h
    obtain ⟨⟨i, j⟩, he, hk⟩ := Law.mem_merge.1 h
    obtain ⟨rfl, rfl⟩ := Prod.mk.inj hk
    exact ⟨hg i ((hG.mem i j).1 he).1, hg j (hG.lt i j he)⟩
  simp only [List.any_eq_true, List.mem_range, bne_iff_ne, ne_eq, decide_eq_decide]
  constructor
  · rintro ⟨a, ha, b, hb, h⟩ he
    rw [aggAt_pos hG hGpos, h1 a ha, he] at h
    exact h Iff.rfl
  · intro h
    by_contra hc
    push Not at hc
    refine h (Finset.ext (fun ⟨a, b⟩ => ?_))
    by_cases hab : a < M ∧ b < M
    · have := hc a hab.1 b hab.2
      rwa [aggAt_pos hG hGpos, h1 a hab.1] at this
    · constructor
      · intro h2; exact absurd (hmM a b h2) hab
      · intro h2; exact absurd ⟨((hA.mem a b).1 h2).1, hA.lt a b h2⟩ hab

theorem log_likelihood_mk : log_likelihood (mk n M d x y groups adj s) (n, n) g
    = if (List.range M).any (fun a => (List.range M).any (fun b =>
        decide (0 < aggAt (mk n M d x y groups adj s) g a b) != decide (0 < adj.at a b))) then
        .ok ninf
      else
        agg_likelihood (mk n M d x y groups adj s) (ofENN d)
          (fun a b => decide (0 < aggAt (mk n M d x y groups adj s) g a b)) >>= fun agg_like =>
        .ok (DiGraphEnsemble.likelihood Sparse.ScaleInvariantModel.logp
          Sparse.ScaleInvariantModel.log1mp (ofENN d) n (fun i => fin (x i)) (fun i => fin (y i))
          (fun _ _ => (1 : XR)) (DiGraphEnsemble.csrLink g.indptr g.indices) s
          - (match agg_like with | .error v => v | .ok v => v)) := by
  unfold log_likelihood
  show (if (n, n) ≠ (n, n) then _ else _) = _
  rw [if_neg (by simp)]
  rfl

/-- The log-likelihood of a graph is the logarithm of its conditional probability: `-inf` for
graphs that do not merge to the coarse graph or are impossible. -/
theorem C56_log_likelihood (hA : Stores M adj A) (hApos : ∀ a b, (a, b) ∈ A → 0 < adj.at a b)
    (hG : Stores n g G) (hGpos : ∀ i j, (i, j) ∈ G → 0 < g.at i j) (hg : ∀ i < n, groups i < M)
    (hpos : s = true ∨ ∀ a < M, 0 < groupSum n groups x a ∧ 0 < groupSum n groups y a)
    (hc : Law.coarseProb (Law.pairs n s) (pr d x y) groups A ≠ 0) :
    log_likelihood (mk n M d x y groups adj s) (n, n) g
      = .ok (elog (Law.condProb (Law.pairs n s) (pr d x y) groups A G)) := by
  unfold log_likelihood
  show (if (n, n) ≠ (n, n) then _ else _) = _
  rw [if_neg (by simp)]
  have hcomp := compatible_iff (d := d) (x := x) (y := y) (s := s) hA hApos hG hGpos hg
  by_cases hm : Law.merge groups G = A
  · have h1 : (List.range M).any (fun a => (List.range M).any (fun b =>
        decide (0 < aggAt (mk n M d x y groups adj s) g a b) != decide (0 < adj.at a b))) = false := by
      rw [← Bool.not_eq_true, hcomp]; simpa using hm
    have h1' : (List.range (mk n M d x y groups adj s).M).any (fun a =>
        (List.range (mk n M d x y groups adj s).M).any (fun b =>
        decide (0 < aggAt (mk n M d x y groups adj s) g a b)
          != decide (0 < (mk n M d x y groups adj s).adj.at a b))) = false := h1
    rw [if_neg (by rw [h1']; simp)]
    have hAM := coarse_in hA
    have h2 := agg_likelihood_eq (d := d) (adj := adj) hpos hg hAM
      (link := fun a b => decide (0 < aggAt (mk n M d x y groups adj s) g a b))
      (fun a _ b _ => by rw [decide_eq_true_eq, aggAt_pos hG hGpos, hm])
    have h3 : DiGraphEnsemble.likelihood Sparse.ScaleInvariantModel.logp
        Sparse.ScaleInvariantModel.log1mp (ofENN d) (mk n M d x y groups adj s).n
        (mk n M d x y groups adj s).prop_out (mk n M d x y groups adj s).prop_in
        (fun _ _ => (1 : XR)) (DiGraphEnsemble.csrLink g.indptr g.indices)
        (mk n M d x y groups adj s).selfloops
        = elog (Law.prob (Law.pairs n s) (pr d x y) G) := by
      have := C12_sparse (fine_coherent d x y) n s G g.indptr g.indices
        (fun i hi j _ => by
          rw [hG.mem i j]
          exact ⟨fun h => ⟨hi, h⟩, fun h => h.2⟩)
      have e1 : (1 : XR) = ofENN 1 := by rw [ofENN_of_ne_top ENNReal.one_ne_top]; rfl
      simp only [mk, fin_coe, e1]
      exact this
    dsimp only
    rw [h3, h2]
    show Except.ok _ = _
    congr 1
    have hcp : 0 < Law.coarseProb (Law.pairs n s) (pr d x y) groups A := by
      refine lt_of_le_of_ne ?_ (Ne.symm hc)
      unfold Law.coarseProb Law.mean
      refine Finset.sum_nonneg (fun H _ => mul_nonneg
        (Law.prob_nonneg (fun e _ => pr_mem d x y e) H) ?_)
      dsimp only
      split <;> norm_num
    unfold acc
    rw [if_pos hcp]
    unfold Law.condProb
    rw [if_pos hm]
    have hp := Law.prob_nonneg (S := Law.pairs n s) (fun e _ => pr_mem d x y e) G
    unfold elog
    by_cases h4 : 0 < Law.prob (Law.pairs n s) (pr d x y) G
    · rw [if_pos h4, if_pos (div_pos h4 hcp), Real.log_div h4.ne' hcp.ne']
      simp
    · have h5 : Law.prob (Law.pairs n s) (pr d x y) G = 0 := le_antisymm (not_lt.1 h4) hp
      rw [if_neg h4, h5, zero_div, if_neg (lt_irrefl _)]
      rfl
  · have h1 : (List.range (mk n M d x y groups adj s).M).any (fun a =>
        (List.range (mk n M d x y groups adj s).M).any (fun b =>
        decide (0 < aggAt (mk n M d x y groups adj s) g a b)
          != decide (0 < (mk n M d x y groups adj s).adj.at a b))) = true := hcomp.2 hm
    rw [if_pos h1]
    unfold Law.condProb
    rw [if_neg hm, elog_zero]

/-- A matrix of another size is rejected. -/
theorem C56_shape (size : ℕ × ℕ) (h : size ≠ (n, n)) :
    log_likelihood (mk n M d x y groups adj s) size g = .error .badShape := by
  unfold log_likelihood
  show (if size ≠ (n, n) then _ else _) = _
  rw [if_pos h]

/-- A graph on four vertices with the links `0 → 2` and `1 → 3`. -/
noncomputable def exG : Mat := ⟨fun i => min i 2, [2, 3], [1, 1]⟩

theorem exG_stores : Stores 4 exG {(0, 2), (1, 3)} := by
  refine ⟨fun a b => ?_, fun a b h => ?_, fun a ha => ?_⟩
  · rcases a with _ | _ | a
    · simp [exG, Mat.row]
    · simp [exG, Mat.row]
    · simp [exG, Mat.row]
  · simp at h; omega
  · rcases a with _ | _ | a
    · simp [exG, Mat.row]
    · simp [exG, Mat.row]
    · simp [exG, Mat.row]

example : Stores 2 exAdj {(0, 1)} ∧ (∀ a b, (a, b) ∈ ({(0, 1)} : Finset (ℕ × ℕ)) → 0 < exAdj.at a b) ∧
    Stores 4 exG {(0, 2), (1, 3)} ∧
    (∀ i j, (i, j) ∈ ({(0, 2), (1, 3)} : Finset (ℕ × ℕ)) → 0 < exG.at i j) ∧
    (∀ i < 4, exGroups i < 2) ∧
    (∀ a < 2, 0 < groupSum 4 exGroups (fun _ => 1) a ∧ 0 < groupSum 4 exGroups (fun _ => 1) a) ∧
    Law.coarseProb (Law.pairs 4 false) (pr 1 (fun _ => 1) (fun _ => 1)) exGroups {(0, 1)} ≠ 0 ∧
    Law.merge exGroups {(0, 2), (1, 3)} = {(0, 1)} := by
  refine ⟨exAdj_stores, ?_, exG_stores, ?_, by decide, ?_, exCoarse, by decide⟩
  · intro a b h
    obtain ⟨rfl, rfl⟩ : a = 0 ∧ b = 1 := by simpa using h
    simp [Mat.at, Mat.row, Mat.vals, exAdj]
  · intro i j h
    simp at h
    rcases h with ⟨rfl, rfl⟩ | ⟨rfl, rfl⟩ <;> simp [Mat.at, Mat.row, Mat.vals, exG]
  · intro a ha
    have h0 : 0 < groupSum 4 exGroups (fun _ => 1) 0 :=
      groupSum_pos (i := 0) (groups := exGroups) (by norm_num) (by norm_num)
    have h1 : 0 < groupSum 4 exGroups (fun _ => 1) 1 :=
      groupSum_pos (i := 2) (groups := exGroups) (by norm_num) (by norm_num)
    interval_cases a
    · exact ⟨h0, h0⟩
    · exact ⟨h1, h1⟩

/-- Without the condition on the group totals the code raises `ZeroDivisionError`: two groups of
two vertices, the second one with zero in-properties, no self loops. -/
theorem C56_zero_total_violated :
    Law.coarseProb (Law.pairs 4 false) (pr 1 (fun _ => 1) (fun _ => 0)) exGroups ∅ ≠ 0 ∧
    log_likelihood (mk 4 2 1 (fun _ => 1) (fun _ => 0) exGroups ⟨fun _ => 0, [], []⟩ false) (4, 4)
      ⟨fun _ => 0, [], []⟩ = .error .zeroDivision := by
  constructor
  · rw [Law.coarseProb_eq (T := Finset.range 2 ×ˢ Finset.range 2) _ (by decide) (by simp)]
    refine Finset.prod_ne_zero_iff.2 (fun k _ => ?_)
    unfold Law.linkFactor
    rw [noneOf_block, if_neg (by simp)]
    rw [one_sub_invProb (ENNReal.mul_ne_top ENNReal.one_ne_top ENNReal.coe_ne_top)]
    exact (Real.exp_pos _).ne'
  · have hS : ∀ m, Stores m (⟨fun _ => 0, [], []⟩ : Mat) ∅ := fun m =>
      ⟨fun a b => by simp [Mat.row], fun a b h => by simp at h, fun a _ => by simp [Mat.row]⟩
    have hcomp := compatible_iff (d := 1) (x := fun _ => 1) (y := fun _ => 0) (s := false)
      (n := 4) (M := 2) (groups := exGroups) (hS 2) (by simp) (hS 4) (by simp) (by decide)
    rw [log_likelihood_mk]
    have h1 : (List.range 2).any (fun a => (List.range 2).any (fun b =>
        decide (0 < aggAt (mk 4 2 1 (fun _ => 1) (fun _ => 0) exGroups ⟨fun _ => 0, [], []⟩ false)
            ⟨fun _ => 0, [], []⟩ a b)
          != decide (0 < (⟨fun _ => 0, [], []⟩ : Mat).at a b))) = false := by
      rw [← Bool.not_eq_true, hcomp]; simp [Law.merge]
    rw [if_neg (by rw [h1]; simp)]
    have hz : ∀ link, agg_likelihood (mk 4 2 1 (fun _ => 1) (fun _ => 0) exGroups
        ⟨fun _ => 0, [], []⟩ false) (ofENN 1) link = .error .zeroDivision := by
      intro link
      unfold agg_likelihood
      show (List.range 2).foldlM _ _ = _
      have hl : List.range 2 = [0, 1] := rfl
      rw [hl, List.foldlM_cons]
      have hl' : List.range (mk 4 2 1 (fun _ => 1) (fun _ => 0) exGroups
        ⟨fun _ => 0, [], []⟩ false).M = [0, 1] := rfl
      rw [hl', List.foldlM_cons]
      have hzz : (mk 4 2 1 (fun _ => 1) (fun _ => 0) exGroups ⟨fun _ => 0, [], []⟩ false).zAgg 0 0
          = .error .zeroDivision := by
        unfold Obj.zAgg
        rw [aggDiag_eq, aggOut_eq, aggIn_eq]
        have : groupSum 4 exGroups (fun _ => 0) 0 = 0 := by simp [groupSum]
        rw [this]
        simp only [NNReal.coe_zero, fin_mul_fin, mul_zero, divZ_zero]
        rfl
      dsimp only
      rw [hzz]
      rfl
    rw [hz]
    rfl

/-! ## C57 -/

/-- The argument `adj` of the constructor: a dense array or a scipy matrix in csr or csc format.
A csc matrix stores for each column the rows: `Mat.row m b` are the rows of column `b`. -/
inductive AdjArg where
  | dense (f : ℕ → ℕ → ℝ)
  | csr (m : Mat)
  | csc (m : Mat)

/-- `sp.csr_array(f)` for an `M` by `M` array. -/
noncomputable def csr_array (M : ℕ) (f : ℕ → ℕ → ℝ) : Mat :=
  let row := fun a => (List.range M).filter (fun b => f a b ≠ 0)
  { indptr := fun a => ∑ i ∈ Finset.range a, (row i).length
    indices := (List.range M).flatMap row
    data := (List.range M).flatMap (fun a => (row a).map (f a)) }

/-- `if not sp.issparse(self.adj): self.adj = sp.csr_array(self.adj)`
(`/repo/src/graph_ensembles/sparse/models/conditional.py:198-200`): the arrays `indptr`,
`indices`, `data` read by all methods. -/
noncomputable def setAdj (M : ℕ) : AdjArg → Mat
  | .dense f => csr_array M f
  | .csr m => m
  | .csc m => m

/-- The entries of the matrix passed. -/
noncomputable def AdjArg.entry : AdjArg → ℕ → ℕ → ℝ
  | .dense f, a, b => f a b
  | .csr m, a, b => m.at a b
  | .csc m, a, b => m.at b a

theorem csr_slice {α : Type} (row : ℕ → List α) (M : ℕ) {a : ℕ} (ha : a < M) :
    (((List.range M).flatMap row).drop (∑ i ∈ Finset.range a, (row i).length)).take
      (row a).length = row a := by
  have h1 : List.range M = List.range a ++ a :: (List.range (M - a - 1)).map (fun i => a + 1 + i) := by
    have : M = a + (1 + (M - a - 1)) := by omega
    conv_lhs => rw [this, List.range_add, List.range_add]
    simp [Function.comp_def, add_assoc]
  have h2 : ((List.range a).flatMap row).length = ∑ i ∈ Finset.range a, (row i).length := by
    clear ha h1
    induction a with
    | zero => simp
    | succ a ih => rw [List.range_succ, List.flatMap_append, List.length_append, ih,
        Finset.sum_range_succ]; simp
  rw [h1, List.flatMap_append, ← h2, List.drop_left, List.flatMap_cons, List.take_left]

theorem csr_array_row (f : ℕ → ℕ → ℝ) {a : ℕ} (ha : a < M) :
    (csr_array M f).row a = (List.range M).filter (fun b => f a b ≠ 0) := by
  unfold Mat.row csr_array
  dsimp only
  rw [Finset.sum_range_succ, Nat.add_sub_cancel_left]
  exact csr_slice (fun a => (List.range M).filter (fun b => f a b ≠ 0)) M ha

theorem csr_array_vals (f : ℕ → ℕ → ℝ) {a : ℕ} (ha : a < M) :
    (csr_array M f).vals a = ((List.range M).filter (fun b => f a b ≠ 0)).map (f a) := by
  unfold Mat.vals csr_array
  dsimp only
  rw [Finset.sum_range_succ, Nat.add_sub_cancel_left]
  have := csr_slice (fun a => ((List.range M).filter (fun b => f a b ≠ 0)).map (f a)) M ha
  simp only [List.length_map] at this
  exact this

/-- For a dense array the stored matrix has exactly the non-zero entries as links, with their
values. -/
theorem C57_dense_partial (f : ℕ → ℕ → ℝ) :
    Stores M (setAdj M (.dense f))
      ((Finset.range M ×ˢ Finset.range M).filter (fun k => f k.1 k.2 ≠ 0)) ∧
    ∀ a < M, ∀ b < M, (setAdj M (.dense f)).at a b = (AdjArg.dense f).entry a b := by
  refine ⟨⟨fun a b => ?_, fun a b h => ?_, fun a ha => ?_⟩, fun a ha b hb => ?_⟩
  · show _ ↔ a < M ∧ b ∈ (csr_array M f).row a
    constructor
    · intro h
      simp only [Finset.mem_filter, Finset.mem_product, Finset.mem_range] at h
      refine ⟨h.1.1, ?_⟩
      rw [csr_array_row f h.1.1]
      simpa using ⟨h.1.2, h.2⟩
    · rintro ⟨ha, hb⟩
      rw [csr_array_row f ha] at hb
      have : b < M ∧ f a b ≠ 0 := by simpa using hb
      simp [ha, this.1, this.2]
  · simp only [Finset.mem_filter, Finset.mem_product, Finset.mem_range] at h
    exact h.1.2
  · show ((csr_array M f).row a).Nodup
    rw [csr_array_row f ha]
    exact List.nodup_range.filter _
  · show (csr_array M f).at a b = f a b
    unfold Mat.at
    rw [csr_array_row f ha, csr_array_vals f ha, List.zip_map_right]
    generalize hL : (List.range M).filter (fun b => f a b ≠ 0) = L
    have hnd : L.Nodup := by rw [← hL]; exact List.nodup_range.filter _
    have hmem : b ∈ L ↔ f a b ≠ 0 := by rw [← hL]; simp [hb]
    clear hL
    have key : ∀ L : List ℕ, L.Nodup → (((L.zip L).map (Prod.map id (f a))).map
        (fun e => if e.1 = b then e.2 else 0)).sum = if b ∈ L then f a b else 0 := by
      intro L hL
      induction L with
      | nil => simp
      | cons c L ih =>
        rw [List.nodup_cons] at hL
        simp only [List.zip_cons_cons, List.map_cons, List.sum_cons, ih hL.2, Prod.map, id]
        by_cases hc : c = b
        · subst hc
          simp [hL.1]
        · have hc' : b ≠ c := fun h => hc h.symm
          simp [hc, hc']
    rw [key L hnd]
    by_cases h : b ∈ L
    · rw [if_pos h]
    · rw [if_neg h]
      by_contra hc
      exact h (hmem.2 (Ne.symm hc))

/-- For a csr matrix the stored matrix is the matrix passed. -/
theorem C57_csr_partial (m : Mat) : ∀ a b, (setAdj M (.csr m)).at a b = (AdjArg.csr m).entry a b :=
  fun _ _ => rfl

/-- A csc matrix is read transposed: the coarse graph passed has the single link `1 → 0`, every
sample from the fitted model merges to `0 → 1`. -/
theorem C57_csc_violated :
    ∃ m : Mat, (∀ a < 2, ∀ b < 2, (AdjArg.csc m).entry a b = if a = 1 ∧ b = 0 then 3 else 0) ∧
      ∀ u e : ℕ → ℕ → ℝ, (∀ i j, 0 ≤ u i j ∧ u i j < 1) →
        ∃ rows, sample (mk 4 2 1 (fun _ => 1) (fun _ => 1) exGroups (setAdj 2 (.csc m)) false)
          .none none none u e = .ok rows ∧
          Law.merge exGroups (rows.map Prod.fst).toFinset = {(0, 1)} := by
  refine ⟨exAdj, ?_, ?_⟩
  · intro a ha b hb
    interval_cases a <;> interval_cases b <;> simp [AdjArg.entry, Mat.at, Mat.row, Mat.vals, exAdj]
  · intro u e hu
    obtain ⟨rows, h1, _, _, h4⟩ := C39_binary (M := 2) exAdj_stores exFeasible none none u e hu
    exact ⟨rows, h1, h4⟩

end

end Verif.Cond
