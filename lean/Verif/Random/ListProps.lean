import Verif.Random.Props

/-! # C38: the lists built inside the weighted samplers of the random ensemble -/

namespace Verif

noncomputable section

namespace Rand

/-- **C38**, what the weighted samplers build before failing: the links of the unweighted sample
with the same draws, each with the weight drawn for that pair.  (The list of weights is then
dropped, see `C38_violated`.) -/
theorem C38_lists (p : ℝ) (n : ℕ) (s : Bool) (u w : ℕ → ℕ → ℝ) :
    weighted_lists p n s u w = (binary_sample p n s u).map (fun e => (e, w e.1 e.2)) ∧
    (∀ e v, (e, v) ∈ weighted_lists p n s u w ↔
      e ∈ Law.pairs n s ∧ u e.1 e.2 < p ∧ v = w e.1 e.2) ∧
    ((weighted_lists p n s u w).map Prod.fst).Nodup ∧
    weighted_sample p n s u w = .two (binary_sample p n s u) := by
  have h1 : weighted_lists p n s u w = (binary_sample p n s u).map (fun e => (e, w e.1 e.2)) := by
    unfold weighted_lists binary_sample
    refine List.foldl_hom (init := ([] : List (ℕ × ℕ)))
      (List.map (fun e : ℕ × ℕ => (e, w e.1 e.2))) (fun rows i => ?_)
    refine List.foldl_hom (List.map (fun e : ℕ × ℕ => (e, w e.1 e.2))) (fun rows j => ?_)
    split_ifs
    · simp
    · rfl
    · rfl
  have hfst : (weighted_lists p n s u w).map Prod.fst = binary_sample p n s u := by
    rw [h1, List.map_map]; exact List.map_id _
  have hbin : binary_sample p n s u = (order n s).filter (fun e => decide (u e.1 e.2 < p)) := by
    rw [binary_sample_eq_ens, binary_sample_eq]
    refine List.filter_congr (fun e _ => ?_)
    exact XR.ltb_fin_fin _ _
  refine ⟨h1, fun e v => ?_, ?_, ?_⟩
  · rw [h1, hbin]
    simp only [List.mem_map, List.mem_filter, mem_order, decide_eq_true_eq, Prod.mk.injEq]
    constructor
    · rintro ⟨a, ⟨h2, h3⟩, rfl, rfl⟩; exact ⟨h2, h3, rfl⟩
    · rintro ⟨h2, h3, rfl⟩; exact ⟨e, ⟨h2, h3⟩, rfl, rfl⟩
  · rw [hfst, hbin]; exact (nodup_order _ _).filter _
  · unfold weighted_sample; rw [hfst]

/-- A link with weight 5 on two vertices. -/
example : ((0, 1), 5) ∈ weighted_lists (1 / 2) 2 false (fun _ _ => 0) (fun _ _ => 5) := by
  rw [(C38_lists _ _ _ _ _).2.1]
  exact ⟨by decide, by norm_num, rfl⟩

end Rand

end

end Verif
