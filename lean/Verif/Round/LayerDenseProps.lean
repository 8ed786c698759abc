import Verif.Round.LayerDense
import Verif.Round.LayerProps

/-!
# C112 on arrays: expected edges and degrees by label of the dense backend in double precision

Missing in the theorems with the suffix `_partial`: factors whose partial products leave the range of
`Round.LayerRange`, mathematical functions that are not correctly rounded, and, for the numbers of
edges, labels beyond the number of vertices (the method loops over the wrong range, see
`C49_dense_edges_violated`).
-/

namespace Verif

open XR Round Verif.Spec

/-- **C112**, expected degrees by label (dense backend).  With at most `2 ^ 25` vertices, any number of
labels and factors in the normal range or zero, the out-degree and in-degree of a vertex under a label
have relative errors of at most `(n + 6) * 2 ^ -52` and its degree of at most `(n + 12) * 2 ^ -52`. -/
theorem C112_dense_degrees_partial (f : (XR → XR → XR → XR → XR) × (XR → XR → XR → XR → XR))
    (hf : f ∈ Round.layerModels) (n L : ℕ) (hn : n ≤ 2 ^ 25) (d : ℕ → ℝ) (x y : ℕ → ℕ → ℝ)
    (h : ∀ i < n, ∀ j < n, ∀ k < L, Round.LayerRange (d k) (x i k) (y j k))
    (dyad : ℕ → ℕ → XR) (sl : Bool) :
    let D : ℕ → XR := fun k => fin (d k)
    let X : ℕ → ℕ → XR := fun i k => fin (x i k)
    let Y : ℕ → ℕ → XR := fun i k => fin (y i k)
    let s := Round.Dense.exp_degrees_label binary64 f.1 n L D X Y dyad sl
    let t := Layer.Dense.exp_degrees_label f.2 n L D X Y dyad sl
    ∀ k < L, ∀ i < n,
      Round.Close (fun V => (n + 6) * (2 : ℝ) ^ (-52 : ℤ) * V) (s.exp_d_out (i, k))
        (t.exp_d_out (i, k)) ∧
      Round.Close (fun V => (n + 6) * (2 : ℝ) ^ (-52 : ℤ) * V) (s.exp_d_in (i, k))
        (t.exp_d_in (i, k)) ∧
      Round.Close (fun V => (n + 12) * (2 : ℝ) ^ (-52 : ℤ) * V) (s.exp_d (i, k))
        (t.exp_d (i, k)) := by
  intro D X Y s t k hk i hi
  have hr := Round.degrees_rel hn sl (c := 5.3) (by norm_num) (by norm_num) (p := f.1) (q := f.2)
    (d := fin (d k)) (x := fun i => fin (x i k)) (y := fun j => fin (y j k)) (z := dyad)
    (fun i hi j hj => Round.layer_term hf (h i hi j hj k hk) _) i hi
  have hs := Round.Dense.slice_label binary64 f.1 D X Y dyad sl n L k hk
  have ht := Layer.Dense.slice_label f.2 D X Y dyad sl n L k hk
  dsimp only at hr
  have mono : ∀ {a b : ℝ} {v e : XR}, a ≤ b →
      Round.Close (fun V => a * (2 : ℝ) ^ (-52 : ℤ) * V) v e →
      Round.Close (fun V => b * (2 : ℝ) ^ (-52 : ℤ) * V) v e := by
    rintro a b v e hab ⟨v', V, e1, e2, V0, hv⟩
    exact ⟨v', V, e1, e2, V0, hv.trans (mul_le_mul_of_nonneg_right
      (mul_le_mul_of_nonneg_right hab (by positivity)) V0)⟩
  rw [← hs, ← ht] at hr
  exact ⟨mono (by linarith) hr.1, mono (by linarith) hr.2.1, mono (by linarith) hr.2.2⟩

/-- **C112**, expected numbers of edges by label (dense backend).  With as many labels as vertices (the
range the method loops over), at most `2 ^ 25`, and factors in the normal range or zero, the expected
number of edges of a label has a relative error of at most `(N + 6) * 2 ^ -52`, where `N` is the number
of admissible pairs. -/
theorem C112_dense_edges_partial (f : (XR → XR → XR → XR → XR) × (XR → XR → XR → XR → XR))
    (hf : f ∈ Round.layerModels) (n : ℕ) (hn : n ≤ 2 ^ 25) (d : ℕ → ℝ) (x y : ℕ → ℕ → ℝ)
    (h : ∀ i < n, ∀ j < n, ∀ k < n, Round.LayerRange (d k) (x i k) (y j k))
    (dyad : ℕ → ℕ → XR) (sl : Bool) :
    let D : ℕ → XR := fun k => fin (d k)
    let X : ℕ → ℕ → XR := fun i k => fin (x i k)
    let Y : ℕ → ℕ → XR := fun i k => fin (y i k)
    ∃ e E : List XR, Round.Dense.exp_edges_label binary64 f.1 n n D X Y dyad sl = some e ∧
      Layer.Dense.exp_edges_label f.2 n n D X Y dyad sl = some E ∧ e.length = n ∧ E.length = n ∧
      ∀ k < n, Round.Close (fun V => ((Law.pairs n sl).card + 6) * (2 : ℝ) ^ (-52 : ℤ) * V)
        (e.getD k 0) (E.getD k 0) := by
  intro D X Y
  have hmap : ∀ (A : Arith) (p : XR → XR → XR → XR → XR),
      Round.Dense.exp_edges_label A p n n D X Y dyad sl = some ((List.range n).map fun k =>
        Round.Dense.exp_edges_col A p (D k) n (fun i => X i k) (fun j => Y j k) dyad sl) := by
    intro A p
    have hl : ∀ l : List ℕ, (∀ k ∈ l, k < n) → l.mapM (fun k =>
        (Layer.Dense.col n X k).bind (fun a => (Layer.Dense.col n Y k).map (fun b =>
          Round.Dense.exp_edges_col A p (D k) n a b dyad sl)))
        = some (l.map fun k =>
          Round.Dense.exp_edges_col A p (D k) n (fun i => X i k) (fun j => Y j k) dyad sl) := by
      intro l
      induction l with
      | nil => intro _; rfl
      | cons k l ih =>
        intro hl
        rw [List.mapM_cons, ih (fun k hk => hl k (by simp [hk]))]
        simp [Layer.Dense.col, hl k (by simp)]
    exact hl _ (fun k hk => List.mem_range.1 hk)
  have hcard : (Law.pairs n sl).card = n * (if sl then n else n - 1) := by
    have h1 : ∀ i ∈ Finset.range n, ((Finset.range n).filter fun j => i ≠ j ∨ sl = true).card
        = if sl then n else n - 1 := by
      intro i hi
      cases sl
      · have : ((Finset.range n).filter fun j => i ≠ j ∨ false = true) = (Finset.range n).erase i := by
          ext j
          simp [and_comm, eq_comm]
        rw [this, Finset.card_erase_of_mem hi]
        simp
      · simp
    have h2 : (Law.pairs n sl).card = ∑ i ∈ Finset.range n,
        ((Finset.range n).filter fun j => i ≠ j ∨ sl = true).card := by
      have : Law.pairs n sl = ((Finset.range n).sigma
          (fun i => (Finset.range n).filter fun j => i ≠ j ∨ sl = true)).map ⟨fun e => (e.1, e.2), by rintro ⟨a, b⟩ ⟨c, d⟩ h; simpa using h⟩ := by
        ext ⟨i, j⟩
        rw [Law.mem_pairs]
        constructor
        · rintro ⟨h3, h4, h5⟩
          exact Finset.mem_map.2 ⟨⟨i, j⟩, by simp [h3, h4, h5], rfl⟩
        · intro hm
          obtain ⟨⟨a, b⟩, hab, e⟩ := Finset.mem_map.1 hm
          obtain ⟨rfl, rfl⟩ := Prod.mk.inj e
          simpa using hab
      rw [this, Finset.card_map, Finset.card_sigma]
    rw [h2, Finset.sum_congr rfl h1]
    simp
  refine ⟨_, _, hmap binary64 f.1, hmap Arith.exact f.2, by simp, by simp, fun k hk => ?_⟩
  have hr := Round.edges_rel hn sl (c := 5.3) (by norm_num) (by norm_num) (p := f.1) (q := f.2)
    (d := fin (d k)) (x := fun i => fin (x i k)) (y := fun j => fin (y j k)) (z := dyad)
    (fun i hi j hj => Round.layer_term hf (h i hi j hj k hk) _)
  obtain ⟨v, V, e1, e2, V0, hv⟩ := hr
  refine ⟨v, V, ?_, ?_, V0, hv.trans ?_⟩
  · rw [← e1]
    simp [List.getD, hk]
    rfl
  · rw [← e2]
    simp [List.getD, hk]
    rfl
  · rw [hcard]
    exact mul_le_mul_of_nonneg_right
      (mul_le_mul_of_nonneg_right (by linarith) (by positivity)) V0

/-- Two vertices and two labels with unit properties and parameters are in the range. -/
example : ∀ i < 2, ∀ j < 2, ∀ k < 2, Round.LayerRange ((fun _ : ℕ => (1 : ℝ)) k)
    ((fun _ _ : ℕ => (1 : ℝ)) i k) ((fun _ _ : ℕ => (1 : ℝ)) j k) := by
  intro i _ j _ k _
  have h1 : (2 : ℝ) ^ (-1000 : ℤ) ≤ 1 := zpow_le_one_of_nonpos₀ (by norm_num) (by norm_num)
  have h2 : (1 : ℝ) ≤ (2 : ℝ) ^ (1000 : ℤ) := one_le_zpow₀ (by norm_num) (by norm_num)
  refine .inr ⟨by norm_num, by norm_num, by norm_num, ?_, ?_⟩ <;> simp only [mul_one] <;>
    exact ⟨h1, h2⟩

end Verif
