import Verif.Cond.MeanLemmas
import Verif.Ensemble.LikeLemmas

/-! # Likelihood of the coarse graph -/

namespace Verif.Cond

open scoped ENNReal NNReal
open XR Spec

/-- The two possible states of the likelihood loop after multiplying up to `P`. -/
noncomputable def acc (P : ℝ) : Except XR XR :=
  if 0 < P then .ok (fin (Real.log P)) else .error ninf

theorem foldlM_acc {ε : Type} (f : Except XR XR → ℕ → Except ε (Except XR XR)) (w : ℕ → ℝ) (m : ℕ)
    (hw : ∀ i < m, 0 ≤ w i) (h : ∀ i < m, ∀ P, 0 ≤ P → f (acc P) i = .ok (acc (P * w i)))
    (P : ℝ) (hP : 0 ≤ P) :
    (List.range m).foldlM f (acc P) = .ok (acc (P * ∏ i ∈ Finset.range m, w i)) := by
  induction m with
  | zero => simp [pure, Except.pure]
  | succ m ih =>
    have hprod : 0 ≤ P * ∏ i ∈ Finset.range m, w i :=
      mul_nonneg hP (Finset.prod_nonneg (fun i hi => hw i (by simp at hi; omega)))
    rw [List.range_succ, List.foldlM_append,
      ih (fun i hi => hw i (by omega)) (fun i hi => h i (by omega)), Finset.prod_range_succ]
    show (f _ m >>= fun s => pure s) = _
    rw [h m (by omega) _ hprod, mul_assoc]
    rfl

section
variable {n M : ℕ} {d : ℝ≥0∞} {x y : ℕ → ℝ≥0} {groups : ℕ → ℕ} {adj : Mat} {s : Bool}
  {A : Finset (ℕ × ℕ)}

theorem zAgg_ok (hpos : s = true ∨ ∀ a < M, 0 < groupSum n groups x a ∧ 0 < groupSum n groups y a)
    {a b : ℕ} (ha : a < M) (hb : b < M) :
    ∃ z : ℝ≥0, (mk n M d x y groups adj s).zAgg a b = .ok (fin z) ∧
      groupSum n groups x a * groupSum n groups y b * z = blockSum n s groups x y (a, b) := by
  by_cases h : s = true ∨ a ≠ b
  · refine ⟨1, ?_, by rw [mul_one, blockSum_loops (a, b) h]⟩
    unfold Obj.zAgg
    have hs : (mk n M d x y groups adj s).selfloops = s := rfl
    have : (!s && a == b) = false := by
      rcases h with h | h
      · simp [h]
      · simp [h]
    rw [hs]
    simp only [this, Bool.false_eq_true, if_false]
    rfl
  · push Not at h
    have hp := hpos.resolve_left h.1
    have h1 := (hp a ha).1
    have h2 := (hp b hb).2
    refine ⟨_, zAgg_eq a b h1 h2, ?_⟩
    have := h1.ne'
    have := h2.ne'
    field_simp

theorem linkFactor_mem (k : ℕ × ℕ) :
    0 ≤ Law.linkFactor (Law.pairs n s) (pr d x y) groups A k := by
  unfold Law.linkFactor
  rw [noneOf_block]
  have h1 := invProb_nonneg (d * blockSum n s groups x y k)
  have h2 := invProb_le_one (d * blockSum n s groups x y k)
  split <;> linarith

theorem agg_likelihood_eq
    (hpos : s = true ∨ ∀ a < M, 0 < groupSum n groups x a ∧ 0 < groupSum n groups y a)
    (hg : ∀ i < n, groups i < M) (hAM : A ⊆ Finset.range M ×ˢ Finset.range M)
    {link : ℕ → ℕ → Bool} (hl : ∀ a < M, ∀ b < M, link a b = true ↔ (a, b) ∈ A) :
    agg_likelihood (mk n M d x y groups adj s) (ofENN d) link
      = .ok (acc (Law.coarseProb (Law.pairs n s) (pr d x y) groups A)) := by
  have hS : ∀ e ∈ Law.pairs n s, (groups e.1, groups e.2) ∈ Finset.range M ×ˢ Finset.range M := by
    rintro ⟨i, j⟩ he
    obtain ⟨hi, hj, _⟩ := Law.mem_pairs.1 he
    simp [hg i hi, hg j hj]
  rw [Law.coarseProb_eq _ hS hAM, Finset.prod_product]
  unfold agg_likelihood
  have h0 : (Except.ok (0 : XR) : Except XR XR) = acc 1 := by
    unfold acc; rw [if_pos one_pos, Real.log_one]; rfl
  have hM : (mk n M d x y groups adj s).M = M := rfl
  rw [h0, hM, foldlM_acc _ (fun a => ∏ b ∈ Finset.range M,
    Law.linkFactor (Law.pairs n s) (pr d x y) groups A (a, b)) M
    (fun a _ => Finset.prod_nonneg (fun b _ => linkFactor_mem _)) _ 1 zero_le_one, one_mul]
  intro a ha P hP
  refine foldlM_acc _ _ M (fun b _ => linkFactor_mem _) (fun b hb P hP => ?_) P hP
  obtain ⟨z, hz, hzB⟩ := zAgg_ok (d := d) (adj := adj) hpos ha hb
  have hB : (d * groupSum n groups x a * groupSum n groups y b * z : ℝ≥0∞)
      = d * blockSum n s groups x y (a, b) := by
    rw [← hzB]; push_cast; ring
  have htmp : (if link a b then Sparse.ScaleInvariantModel.logp (ofENN d)
        ((mk n M d x y groups adj s).aggOut a) ((mk n M d x y groups adj s).aggIn b) (fin z)
      else Sparse.ScaleInvariantModel.log1mp (ofENN d)
        ((mk n M d x y groups adj s).aggOut a) ((mk n M d x y groups adj s).aggIn b) (fin z))
      = elog (Law.linkFactor (Law.pairs n s) (pr d x y) groups A (a, b)) := by
    rw [aggOut_eq, aggIn_eq, fin_coe, fin_coe, fin_coe, sparse_inv_logp, sparse_inv_log1mp, hB]
    unfold Law.linkFactor
    rw [noneOf_block, sub_sub_cancel]
    by_cases h : link a b = true
    · rw [if_pos h, if_pos ((hl a ha b hb).1 h)]
    · rw [if_neg h, if_neg (fun hc => h ((hl a ha b hb).2 hc))]
  set w := Law.linkFactor (Law.pairs n s) (pr d x y) groups A (a, b) with hwdef
  have hw : 0 ≤ w := linkFactor_mem _
  by_cases h1 : 0 < P
  · have : acc P = .ok (fin (Real.log P)) := by unfold acc; rw [if_pos h1]
    rw [this]
    dsimp only
    rw [hz]
    show Except.ok _ = _
    rw [htmp]
    congr 1
    unfold acc elog
    by_cases h2 : 0 < w
    · rw [if_pos h2, if_pos (mul_pos h1 h2), Real.log_mul h1.ne' h2.ne']
      simp
    · have h3 : w = 0 := le_antisymm (not_lt.1 h2) hw
      rw [if_neg h2, h3]; simp
  · have h3 : P = 0 := le_antisymm (not_lt.1 h1) hP
    have : acc P = .error ninf := by unfold acc; rw [if_neg h1]
    rw [this]
    dsimp only
    unfold acc
    rw [h3]; simp

/-- A matrix that stores the links `A` has positive entries exactly there. -/
theorem at_of_notMem {g : Mat} {i j : ℕ} (h : j ∉ g.row i) : g.at i j = 0 := by
  unfold Mat.at
  refine List.sum_eq_zero (fun v hv => ?_)
  obtain ⟨e, he, rfl⟩ := List.mem_map.1 hv
  rw [if_neg]
  rintro rfl
  exact h (List.of_mem_zip he).1

theorem aggAt_pos {g : Mat} {G : Finset (ℕ × ℕ)} (hG : Stores n g G)
    (hpos : ∀ i j, (i, j) ∈ G → 0 < g.at i j) (a b : ℕ) :
    0 < aggAt (mk n M d x y groups adj s) g a b ↔ (a, b) ∈ Law.merge groups G := by
  have hnn : ∀ i < n, ∀ j, 0 ≤ g.at i j := by
    intro i hi j
    by_cases h : (i, j) ∈ G
    · exact (hpos i j h).le
    · rw [at_of_notMem (fun hj => h ((hG.mem i j).2 ⟨hi, hj⟩))]
  have hin : ∀ i < n, 0 ≤ (((mk n M d x y groups adj s).members b).map (fun j => g.at i j)).sum := by
    intro i hi
    refine List.sum_nonneg (fun v hv => ?_)
    obtain ⟨j, _, rfl⟩ := List.mem_map.1 hv
    exact hnn i hi j
  rw [Law.mem_merge]
  constructor
  · intro h
    by_contra hc
    push Not at hc
    have : aggAt (mk n M d x y groups adj s) g a b = 0 := by
      unfold aggAt
      refine List.sum_eq_zero (fun v hv => ?_)
      obtain ⟨i, hi, rfl⟩ := List.mem_map.1 hv
      refine List.sum_eq_zero (fun v hv => ?_)
      obtain ⟨j, hj, rfl⟩ := List.mem_map.1 hv
      have hi' := mem_members.1 hi
      have hj' := mem_members.1 hj
      refine at_of_notMem (fun hm => hc (i, j) ((hG.mem i j).2 ⟨hi'.1, hm⟩) ?_)
      exact Prod.ext hi'.2 hj'.2
    rw [this] at h
    exact lt_irrefl _ h
  · rintro ⟨⟨i, j⟩, he, hk⟩
    obtain ⟨h1, h2⟩ := Prod.mk.inj hk
    have hi : i < n := ((hG.mem i j).1 he).1
    have hj : j < n := hG.lt i j he
    have himem : i ∈ (mk n M d x y groups adj s).members a := mem_members.2 ⟨hi, h1⟩
    have hjmem : j ∈ (mk n M d x y groups adj s).members b := mem_members.2 ⟨hj, h2⟩
    have hle : g.at i j ≤ (((mk n M d x y groups adj s).members b).map (fun j => g.at i j)).sum :=
      List.single_le_sum (fun v hv => by
        obtain ⟨j', _, rfl⟩ := List.mem_map.1 hv
        exact hnn i hi j') _ (List.mem_map_of_mem hjmem)
    refine lt_of_lt_of_le (lt_of_lt_of_le (hpos i j he) hle) ?_
    unfold aggAt
    exact List.single_le_sum (fun v hv => by
        obtain ⟨i', hi', rfl⟩ := List.mem_map.1 hv
        exact hin i' (mem_members.1 hi').1) _
      (List.mem_map_of_mem (f := fun i =>
        (((mk n M d x y groups adj s).members b).map (fun j => g.at i j)).sum) himem)

end

end Verif.Cond
