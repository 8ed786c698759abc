import Verif.Layer.StreamProps
import Verif.Sampled.MultiProps

/-!
# C104: strengths by label are preserved on average

Weighted samples with the default strengths, which are the properties of the model.
-/

namespace Verif

open XR Spec MeasureTheory ProbabilityTheory Filter Topology
open scoped ENNReal

namespace Layer

variable {Ω : Type} [MeasurableSpace Ω]

/-- The strengths used by default (`/repo/src/graph_ensembles/sparse/models/ensembles.py:861-876, 897-898`):
the stored properties, by label. -/
noncomputable def defaultStrength (n : ℕ) (prop : ℕ → List (ℕ × XR)) (k : ℕ) : List (ℕ × ℝ) :=
  (column n prop k).map fun e => (e.1, Sampled.real e.2)

private theorem default_facts {n : ℕ} {x : ℕ → List (ℕ × ℝ≥0∞)} (hx : ∀ i, RowSorted (x i))
    (hfin : ∀ i, ∀ a ∈ x i, a.2 ≠ ∞) (k : ℕ) :
    ((defaultStrength n (fun i => rowX (x i)) k).map Prod.snd).sum
      = ∑ i ∈ Finset.range n, (entry (x i) k).toReal ∧
    ∀ i < n, entry (defaultStrength n (fun i => rowX (x i)) k) i = (entry (x i) k).toReal ∧
      (((defaultStrength n (fun i => rowX (x i)) k).lookup i).isSome = true ↔ ∃ a ∈ x i, a.1 = k) := by
  obtain ⟨c, hc, h⟩ := Sampled.columns_ok (n := n) (L := 0) hx hfin (s := .none) trivial
  have : c = defaultStrength n (fun i => rowX (x i)) := by
    injection hc with hc
    exact hc.symm
  rw [← this]
  exact h k

/-- A weighted call with the default strengths. -/
noncomputable def defaultCall (K : Kind) (n L : ℕ) (d : ℕ → ℝ≥0∞) (x y : ℕ → List (ℕ × ℝ≥0∞))
    (dyad : ℕ → ℕ → XR) (s : Bool) : LCall :=
  ⟨K.link.p_ijk, n, L, fun k => ofENN (d k), .sparse (fun i => rowX (x i)) (fun i => rowX (y i))
    (.cremb (defaultStrength n fun i => rowX (x i)) (defaultStrength n fun i => rowX (y i))), dyad, s⟩

private theorem entry_pos_stored {x : List (ℕ × ℝ≥0∞)} {k : ℕ} (h : entry x k ≠ 0) :
    ∃ a ∈ x, a.1 = k := by
  rw [stored_iff]
  by_contra hn
  rw [Option.not_isSome_iff_eq_none] at hn
  exact h (by simp [entry, hn])

private theorem default_is (K : Kind) (n L : ℕ) (d : ℕ → ℝ≥0∞) {x y : ℕ → List (ℕ × ℝ≥0∞)}
    (hx : ∀ i, RowSorted (x i)) (hy : ∀ i, RowSorted (y i)) (dyad : ℕ → ℕ → XR) (s : Bool) :
    (defaultCall K n L d x y dyad s).Is K d (fun i k => entry (x i) k) (fun i k => entry (y i) k) :=
  ⟨rfl, rfl, x, y, hx, hy, rfl, rfl, rfl, rfl⟩

/-- **C104**, default strengths: the only condition is that, for every label, the out properties do not
sum to zero and the sums of the out and in properties differ by less than a relative `1e-6`. -/
theorem C104_default (K : Kind) (n L : ℕ) (d : ℕ → ℝ≥0∞) (x y : ℕ → List (ℕ × ℝ≥0∞))
    (hx : ∀ i, RowSorted (x i)) (hy : ∀ i, RowSorted (y i)) (hfx : ∀ i, ∀ a ∈ x i, a.2 ≠ ∞)
    (hfy : ∀ i, ∀ a ∈ y i, a.2 ≠ ∞) (dyad : ℕ → ℕ → XR) (s : Bool)
    (P : Measure Ω) (U : ℕ → Ω → ℝ) (hU : IsUniform P U) :
    (∀ᵐ ω ∂P, ∃ S, ((defaultCall K n L d x y dyad s).sample fun i => U i ω).2 = .ok S) ↔
      ∀ k < L, (∑ i ∈ Finset.range n, (entry (x i) k).toReal) ≠ 0 ∧
        |(∑ i ∈ Finset.range n, (entry (x i) k).toReal) - ∑ i ∈ Finset.range n, (entry (y i) k).toReal|
          < 1e-6 * |∑ i ∈ Finset.range n, (entry (x i) k).toReal| := by
  refine (C104_accepted _ K d _ _ (default_is K n L d hx hy dyad s) P U hU).trans ?_
  show (∀ k < L, _) ↔ _
  refine forall₂_congr fun k _ => ?_
  obtain ⟨hx1, hx2⟩ := default_facts (n := n) hx hfx k
  obtain ⟨hy1, hy2⟩ := default_facts (n := n) hy hfy k
  rw [hx1, hy1]
  refine ⟨fun h => ⟨h.1, h.2.1⟩, fun h => ⟨h.1, h.2, fun e he hq => ?_⟩⟩
  obtain ⟨h1, h2, -⟩ := Law.mem_pairs.1 (show (e.1, e.2) ∈ _ from he)
  have hne : d k * entry (x e.1) k * entry (y e.2) k ≠ 0 := by
    intro h0
    have hq' : 0 < K.q (d k * entry (x e.1) k * entry (y e.2) k) := hq
    rw [h0, K.q_zero] at hq'
    exact lt_irrefl _ hq'
  have a1 := (hx2 e.1 h1).2.2 (entry_pos_stored (right_ne_zero_of_mul (left_ne_zero_of_mul hne)))
  have a2 := (hy2 e.2 h2).2.2 (entry_pos_stored (right_ne_zero_of_mul hne))
  exact a1.trans a2.symm

/-- **C104**, strengths.  Over repeated weighted calls with the default strengths, the average weight of
the links of label `k` within any set `T` of admissible pairs converges with probability one to the sum
of `x i * y j / sum x`. -/
theorem C104_strengths (K : Kind) (n L : ℕ) (d : ℕ → ℝ≥0∞) (x y : ℕ → List (ℕ × ℝ≥0∞))
    (hx : ∀ i, RowSorted (x i)) (hy : ∀ i, RowSorted (y i)) (hfx : ∀ i, ∀ a ∈ x i, a.2 ≠ ∞)
    (hfy : ∀ i, ∀ a ∈ y i, a.2 ≠ ∞) (dyad : ℕ → ℕ → XR) (s : Bool)
    (htot : ∀ k < L, (∑ i ∈ Finset.range n, (entry (x i) k).toReal) ≠ 0 ∧
        |(∑ i ∈ Finset.range n, (entry (x i) k).toReal) - ∑ i ∈ Finset.range n, (entry (y i) k).toReal|
          < 1e-6 * |∑ i ∈ Finset.range n, (entry (x i) k).toReal|)
    (P : Measure Ω) (U : ℕ → Ω → ℝ) (hU : IsUniform P U) :
    ∃ S : ℕ → Ω → List (List ((ℕ × ℕ) × XR)),
      (∀ᵐ ω ∂P, ∀ m, (LCall.run (fun _ => defaultCall K n L d x y dyad s) (fun i => U i ω) m).2
        = (List.range m).map fun t => .ok (S t ω)) ∧
      ∀ k < L, d k ≠ 0 → ∀ T ⊆ Law.pairs n s, ∀ᵐ ω ∂P,
        Tendsto (fun m : ℕ => (∑ t ∈ Finset.range m, ∑ e ∈ T,
          (entryOf ((S t ω).getD k []) e).2) / m) atTop
        (𝓝 (∑ e ∈ T, (entry (x e.1) k).toReal * (entry (y e.2) k).toReal
          / ∑ i ∈ Finset.range n, (entry (x i) k).toReal)) := by
  have hv : (defaultCall K n L d x y dyad s).Valid
      (denseProb K d (fun i k => entry (x i) k) (fun i k => entry (y i) k)) :=
    (C104_accepted _ K d _ _ (default_is K n L d hx hy dyad s) P U hU).1
      ((C104_default K n L d x y hx hy hfx hfy dyad s P U hU).2 htot)
  obtain ⟨S, h1, h2⟩ := C104_average _ K d _ _ (default_is K n L d hx hy dyad s) hv _ _ _ _ rfl P U hU
  refine ⟨S, h1, fun k hk hd T hT => ?_⟩
  obtain ⟨hx1, hx2⟩ := default_facts (n := n) hx hfx k
  obtain ⟨hy1, hy2⟩ := default_facts (n := n) hy hfy k
  have hlim : (∑ e ∈ T, if K.q (d k * entry (x e.1) k * entry (y e.2) k) = 0 then 0 else
      entry (defaultStrength n (fun i => rowX (x i)) k) e.1
        * entry (defaultStrength n (fun i => rowX (y i)) k) e.2
        / ((defaultStrength n (fun i => rowX (x i)) k).map Prod.snd).sum)
      = ∑ e ∈ T, (entry (x e.1) k).toReal * (entry (y e.2) k).toReal
          / ∑ i ∈ Finset.range n, (entry (x i) k).toReal := by
    refine Finset.sum_congr rfl fun e he => ?_
    obtain ⟨b1, b2, -⟩ := Law.mem_pairs.1 (show (e.1, e.2) ∈ _ from hT he)
    rw [hx1, (hx2 e.1 b1).1, (hy2 e.2 b2).1]
    split
    · next h0 =>
      have : d k * entry (x e.1) k * entry (y e.2) k = 0 := by
        by_contra hne
        exact (K.q_pos hne).ne' h0
      rcases mul_eq_zero.1 this with h | h
      · rcases mul_eq_zero.1 h with h | h
        · exact absurd h hd
        · simp [h]
      · simp [h]
    · rfl
  rw [← hlim]
  exact h2 k hk T hT

/-- **C104**, strengths of vertices.  With self-loops and equal sums of the properties, the average out
strength of a vertex under a label converges to its out property, and the average in strength to its in
property. -/
theorem C104_vertex (K : Kind) (n L : ℕ) (d : ℕ → ℝ≥0∞) (x y : ℕ → List (ℕ × ℝ≥0∞))
    (hx : ∀ i, RowSorted (x i)) (hy : ∀ i, RowSorted (y i)) (hfx : ∀ i, ∀ a ∈ x i, a.2 ≠ ∞)
    (hfy : ∀ i, ∀ a ∈ y i, a.2 ≠ ∞) (dyad : ℕ → ℕ → XR)
    (htot : ∀ k < L, (∑ i ∈ Finset.range n, (entry (x i) k).toReal) ≠ 0 ∧
        (∑ i ∈ Finset.range n, (entry (x i) k).toReal) = ∑ i ∈ Finset.range n, (entry (y i) k).toReal)
    (P : Measure Ω) (U : ℕ → Ω → ℝ) (hU : IsUniform P U) :
    ∃ S : ℕ → Ω → List (List ((ℕ × ℕ) × XR)),
      (∀ᵐ ω ∂P, ∀ m, (LCall.run (fun _ => defaultCall K n L d x y dyad true) (fun i => U i ω) m).2
        = (List.range m).map fun t => .ok (S t ω)) ∧
      ∀ k < L, d k ≠ 0 → ∀ v < n,
      (∀ᵐ ω ∂P, Tendsto (fun m : ℕ => (∑ t ∈ Finset.range m, ∑ j ∈ Finset.range n,
          (entryOf ((S t ω).getD k []) (v, j)).2) / m) atTop (𝓝 (entry (x v) k).toReal)) ∧
      ∀ᵐ ω ∂P, Tendsto (fun m : ℕ => (∑ t ∈ Finset.range m, ∑ i ∈ Finset.range n,
          (entryOf ((S t ω).getD k []) (i, v)).2) / m) atTop (𝓝 (entry (y v) k).toReal) := by
  obtain ⟨S, h1, h2⟩ := C104_strengths K n L d x y hx hy hfx hfy dyad true (fun k hk => by
    obtain ⟨a, b⟩ := htot k hk
    refine ⟨a, ?_⟩
    rw [← b, sub_self, abs_zero]
    exact mul_pos (by norm_num) (abs_pos.2 a)) P U hU
  refine ⟨S, h1, fun k hk hd v hv => ⟨?_, ?_⟩⟩
  · have h := h2 k hk hd ((Finset.range n).image fun j => (v, j)) (by
      intro e he
      obtain ⟨j, hj, rfl⟩ := Finset.mem_image.1 he
      exact Law.mem_pairs.2 ⟨hv, Finset.mem_range.1 hj, Or.inr rfl⟩)
    have hinj : Set.InjOn (fun j => ((v, j) : ℕ × ℕ)) (Finset.range n : Set ℕ) :=
      fun a _ b _ hab => (Prod.mk.inj hab).2
    rw [Finset.sum_image hinj] at h
    have hl : ∑ j ∈ Finset.range n, (entry (x v) k).toReal * (entry (y j) k).toReal
        / ∑ i ∈ Finset.range n, (entry (x i) k).toReal = (entry (x v) k).toReal := by
      rw [← Finset.sum_div, ← Finset.mul_sum, ← (htot k hk).2, mul_div_assoc, div_self (htot k hk).1,
        mul_one]
    rw [hl] at h
    filter_upwards [h] with ω hω
    refine hω.congr fun m => ?_
    congr 1
    exact Finset.sum_congr rfl fun t _ => Finset.sum_image hinj
  · have h := h2 k hk hd ((Finset.range n).image fun i => (i, v)) (by
      intro e he
      obtain ⟨j, hj, rfl⟩ := Finset.mem_image.1 he
      exact Law.mem_pairs.2 ⟨Finset.mem_range.1 hj, hv, Or.inr rfl⟩)
    have hinj : Set.InjOn (fun i => ((i, v) : ℕ × ℕ)) (Finset.range n : Set ℕ) :=
      fun a _ b _ hab => (Prod.mk.inj hab).1
    rw [Finset.sum_image hinj] at h
    have hl : ∑ i ∈ Finset.range n, (entry (x i) k).toReal * (entry (y v) k).toReal
        / ∑ i ∈ Finset.range n, (entry (x i) k).toReal = (entry (y v) k).toReal := by
      rw [← Finset.sum_div, ← Finset.sum_mul, mul_comm, mul_div_assoc, div_self (htot k hk).1, mul_one]
    rw [hl] at h
    filter_upwards [h] with ω hω
    refine hω.congr fun m => ?_
    congr 1
    exact Finset.sum_congr rfl fun t _ => Finset.sum_image hinj

/-- Hypotheses of `C104_default`, `C104_strengths` and `C104_vertex`: two vertices and two labels. -/
example : ∃ x : ℕ → List (ℕ × ℝ≥0∞), (∀ i, RowSorted (x i)) ∧ (∀ i, ∀ a ∈ x i, a.2 ≠ ∞) ∧
    ∀ k < 2, (∑ i ∈ Finset.range 2, (entry (x i) k).toReal) ≠ 0 := by
  refine ⟨fun i => [(0, 1), (1, 2)], fun i => ?_, fun i a ha => ?_, fun k hk => ?_⟩
  · unfold RowSorted
    simp
  · simp only [List.mem_cons, List.not_mem_nil, or_false] at ha
    rcases ha with rfl | rfl <;> simp
  · interval_cases k <;> simp [entry, List.lookup_cons]

end Layer

end Verif
