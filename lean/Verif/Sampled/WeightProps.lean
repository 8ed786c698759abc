import Verif.Sampled.MeanProps

/-!
# C75, weights: the mean strengths of weighted samples
-/

namespace Verif

noncomputable section

open XR Spec DiGraphEnsemble MeasureTheory
open scoped ENNReal

namespace Sampled

open Graph (View Q)
open Layer
open Layer.Method (sparseObj)

/-- The mean weight that the sampler gives to an ordered pair: the product of the strengths over the
total, for pairs that can be linked. -/
def meanWeight (n : ℕ) (s : Bool) (q : ℕ × ℕ → ℝ) (so si : ℕ → ℝ) (i j : ℕ) : ℝ :=
  open Classical in
  if (i, j) ∈ Law.pairs n s ∧ q (i, j) ≠ 0 then so i * si j / ∑ k ∈ Finset.range n, so k else 0

theorem noise_nonneg {Ω : Type} [MeasurableSpace Ω] {P : Measure Ω} {V X : ℕ → ℕ → Ω → ℝ}
    (h : IsCrembNoise P V X) : ∀ᵐ ω ∂P, ∀ i j, 0 ≤ V i j ω := by
  rw [ae_all_iff]; intro i
  rw [ae_all_iff]; intro j
  have h1 : ∀ᵐ x ∂(P.map (V i j)), x ∈ Set.Ico (0 : ℝ) 1 := by
    rw [h.lawU i j, unif]
    exact ae_restrict_mem measurableSet_Ico
  filter_upwards [ae_of_ae_map (h.measU i j).aemeasurable h1] with ω hω
  exact hω.1

/-- The mean of one entry. -/
theorem integral_entry {Ω : Type} [MeasurableSpace Ω] {P : Measure Ω} {V X : ℕ → ℕ → Ω → ℝ}
    (hN : IsCrembNoise P V X) {n : ℕ} {s : Bool} {q : ℕ × ℕ → ℝ} (hq : ∀ e, 0 ≤ q e ∧ q e ≤ 1)
    {so si : ℕ → ℝ} {A : Ω → Graph.Mat ℝ}
    (hA : ∀ᵐ ω ∂P, ∀ i j,
      ((i, j) ∈ Law.pairs n s → V i j ω < q (i, j) →
        A ω i j = so i * si j / ((∑ k ∈ Finset.range n, so k) * q (i, j)) * X i j ω) ∧
      (¬ ((i, j) ∈ Law.pairs n s ∧ V i j ω < q (i, j)) → A ω i j = 0)) (i j : ℕ) :
    Integrable (fun ω => A ω i j) P ∧ ∫ ω, A ω i j ∂P = meanWeight n s q so si i j := by
  obtain ⟨l1, l2⟩ := integral_link hN i j (hq (i, j)).1 (hq (i, j)).2
  set S := ∑ k ∈ Finset.range n, so k with hS
  by_cases hp : (i, j) ∈ Law.pairs n s
  · have hae : (fun ω => A ω i j) =ᵐ[P] fun ω =>
        so i * si j / (S * q (i, j)) * ((if V i j ω < q (i, j) then (1 : ℝ) else 0) * X i j ω) := by
      filter_upwards [hA] with ω h
      by_cases hlt : V i j ω < q (i, j)
      · rw [(h i j).1 hp hlt, if_pos hlt, one_mul]
      · rw [(h i j).2 (fun h' => hlt h'.2), if_neg hlt, zero_mul, mul_zero]
    refine ⟨(integrable_congr hae).2 (l1.const_mul _), ?_⟩
    rw [integral_congr_ae hae, integral_const_mul, l2]
    unfold meanWeight
    by_cases h0 : q (i, j) = 0
    · rw [if_neg (fun h => h.2 h0), h0, mul_zero]
    · rw [if_pos ⟨hp, h0⟩, ← hS]
      by_cases hS0 : S = 0
      · simp [hS0]
      · field_simp
  · have hae : (fun ω => A ω i j) =ᵐ[P] fun _ => (0 : ℝ) := by
      filter_upwards [hA] with ω h
      exact (h i j).2 (fun h' => hp h'.1)
    refine ⟨(integrable_congr hae).2 (integrable_zero _ _ _), ?_⟩
    rw [integral_congr_ae hae, integral_zero]
    unfold meanWeight
    rw [if_neg (fun h => hp h.1)]

section Single

variable {ι γ κ : Type} [DecidableEq ι]

/-- **C75**, weighted single-layer samples: over the random numbers the sample is almost surely
accepted and the averages of `out_strength`, `in_strength` and `total_weight` of the sampled graph are
the sums of the mean weights. -/
theorem C75_weights (b : Graph.Backend) (E : Ens) (n : ℕ) (hn : n < 2 ^ 64) (θ : E.δ)
    {q : ℕ × ℕ → ℝ} (hE : ({ E with param := θ } : Ens).Is q) (s : Bool)
    (ref : Option (Ref ι γ κ)) (so si : ℕ → ℝ) (sl : Option Bool) (u : ℕ → ℝ)
    (hS : (∑ i ∈ Finset.range n, so i) ≠ 0)
    (hT : |(∑ i ∈ Finset.range n, so i) - ∑ i ∈ Finset.range n, si i|
      < 1e-6 * |∑ i ∈ Finset.range n, so i|)
    {Ω : Type} [MeasurableSpace Ω] (P : Measure Ω) (V X : ℕ → ℕ → Ω → ℝ) (hN : IsCrembNoise P V X) :
    ∃ g : Ω → Obj ι γ Adj,
      (∀ ω, sample b E n (some θ) s ref (.cremb so si) sl u (fun i j => V i j ω)
        (fun i j => X i j ω) = .ok (g ω)) ∧
      ∀ (h : Ω → List (Q × Bool)) (rc : Ω → Bool),
        let a := fun q i ω => ask (View.single b true (g ω).graph) (h ω) (rc ω) q i 0
        let w := meanWeight n s q so si
        (∀ i < n, ∫ ω, a .out_strength i ω ∂P = ∑ j ∈ Finset.range n, w i j ∧
          ∫ ω, a .in_strength i ω ∂P = ∑ j ∈ Finset.range n, w j i) ∧
        ∫ ω, a .total_weight 0 ω ∂P = ∑ i ∈ Finset.range n, ∑ j ∈ Finset.range n, w i j := by
  have hok : ∀ ω, ∃ g, sample b E n (some θ) s ref (.cremb so si) sl u (fun i j => V i j ω)
        (fun i j => X i j ω) = .ok g := fun ω =>
    ((C74_single_errors b E n (some θ) s ref (.cremb so si) sl u (fun i j => V i j ω)
      (fun i j => X i j ω)).2.2.2 so si (by simp) hn rfl).2
      (fun h => h.elim hS (fun h => absurd hT (not_lt.2 h)))
  choose g hg using hok
  refine ⟨g, hg, fun h rc => ?_⟩
  intro a w
  have hA : ∀ᵐ ω ∂P, ∀ i j,
      ((i, j) ∈ Law.pairs n s → V i j ω < q (i, j) → (g ω).adj.num i j
        = so i * si j / ((∑ k ∈ Finset.range n, so k) * q (i, j)) * X i j ω) ∧
      (¬ ((i, j) ∈ Law.pairs n s ∧ V i j ω < q (i, j)) → (g ω).adj.num i j = 0) := by
    filter_upwards [noise_nonneg hN] with ω hω
    obtain ⟨-, -, -, -, A, hA1, hA2⟩ := C74_single_weights b E n hn θ hE s ref so si sl u
      (fun i j => V i j ω) (fun i j => X i j ω) hω (g ω) (hg ω)
    rw [hA1]
    exact hA2
  have hent := integral_entry hN (q := q)
    (fun e => by rw [← hE.prob_eq]; exact hE.coherent.prob_mem e) hA
  have hnv : ∀ᵐ ω ∂P, (g ω).num_vertices = n := by
    filter_upwards [noise_nonneg hN] with ω hω
    exact (C74_single_weights b E n hn θ hE s ref so si sl u
      (fun i j => V i j ω) (fun i j => X i j ω) hω (g ω) (hg ω)).1
  refine ⟨fun i hi => ⟨?_, ?_⟩, ?_⟩
  · have : (fun ω => a .out_strength i ω) =ᵐ[P]
        fun ω => ∑ j ∈ Finset.range n, (g ω).adj.num i j := by
      filter_upwards [hnv] with ω hω
      simp only [a, ask_eq]
      subst hω
      cases b <;> rfl
    rw [integral_congr_ae this, integral_finsetSum _ (fun j _ => (hent i j).1)]
    exact Finset.sum_congr rfl (fun j _ => (hent i j).2)
  · have : (fun ω => a .in_strength i ω) =ᵐ[P]
        fun ω => ∑ j ∈ Finset.range n, (g ω).adj.num j i := by
      filter_upwards [hnv] with ω hω
      simp only [a, ask_eq]
      subst hω
      cases b <;> rfl
    rw [integral_congr_ae this, integral_finsetSum _ (fun j _ => (hent j i).1)]
    exact Finset.sum_congr rfl (fun j _ => (hent j i).2)
  · have : (fun ω => a .total_weight 0 ω) =ᵐ[P]
        fun ω => ∑ i ∈ Finset.range n, ∑ j ∈ Finset.range n, (g ω).adj.num i j := by
      filter_upwards [hnv] with ω hω
      simp only [a, ask_eq]
      subst hω
      cases b <;> rfl
    rw [integral_congr_ae this,
      integral_finsetSum _ (fun i _ => integrable_finsetSum _ (fun j _ => (hent i j).1))]
    refine Finset.sum_congr rfl (fun i _ => ?_)
    rw [integral_finsetSum _ (fun j _ => (hent i j).1)]
    exact Finset.sum_congr rfl (fun j _ => (hent i j).2)

/-- With self-loops and positive link probabilities the mean weights add up to the given strengths
(the outgoing ones rescaled to the total of the incoming ones). -/
theorem C75_weights_exact {n : ℕ} {q : ℕ × ℕ → ℝ} {so si : ℕ → ℝ}
    (hq : ∀ i < n, ∀ j < n, q (i, j) ≠ 0) (hS : (∑ i ∈ Finset.range n, so i) ≠ 0) (i : ℕ) (hi : i < n) :
    ∑ j ∈ Finset.range n, meanWeight n true q so si i j
      = so i * ((∑ j ∈ Finset.range n, si j) / ∑ j ∈ Finset.range n, so j) ∧
    ∑ j ∈ Finset.range n, meanWeight n true q so si j i = si i := by
  have h : ∀ i < n, ∀ j < n, meanWeight n true q so si i j
      = so i * si j / ∑ k ∈ Finset.range n, so k := fun i hi j hj =>
    if_pos ⟨Law.mem_pairs.2 ⟨hi, hj, Or.inr rfl⟩, hq i hi j hj⟩
  constructor
  · rw [Finset.sum_congr rfl (fun j hj => h i hi j (Finset.mem_range.1 hj)), ← Finset.sum_div,
      ← Finset.mul_sum, mul_div_assoc]
  · rw [Finset.sum_congr rfl (fun j hj => h j (Finset.mem_range.1 hj) i hi), ← Finset.sum_div,
      ← Finset.sum_mul]
    field_simp

/-- Without self-loops the mean out-strength is smaller than the given one: two vertices with strengths
one get one half each. -/
theorem C75_weights_loopless (q : ℕ × ℕ → ℝ) (hq : ∀ e, q e ≠ 0) :
    ∑ j ∈ Finset.range 2, meanWeight 2 false q (fun _ => 1) (fun _ => 1) 0 j = 1 / 2 := by
  simp only [Finset.sum_range_succ, Finset.sum_range_zero, meanWeight, hq, Law.mem_pairs, ne_eq]
  norm_num

end Single

section Multi

variable {ι γ κ : Type} [DecidableEq ι] [DecidableEq κ]

/-- **C75**, weighted multi-layer samples of the sparse backend: if every layer has non-zero matching
totals and possible links join vertices for which both strengths or none is stored, the sample is
almost surely accepted and in every layer the averages of the strengths are the sums of the mean
weights; the total weight of the projection is the sum over the layers. -/
theorem C75_sparse_weights (K : Kind) (n L : ℕ) (hn : n < 2 ^ 64) (hL : L < 2 ^ 64) (d : ℕ → ℝ≥0∞)
    (x y : ℕ → List (ℕ × ℝ≥0∞)) (hx : ∀ i, RowSorted (x i)) (hy : ∀ i, RowSorted (y i))
    (hxf : ∀ i, ∀ a ∈ x i, a.2 ≠ ∞) (hyf : ∀ i, ∀ a ∈ y i, a.2 ≠ ∞)
    (dyad : ℕ → ℕ → XR) (s : Bool) (ref : Option (Ref ι γ κ)) (hr : RefOk ref)
    (so si : Strength) (hso : so.Fits n L) (hsi : si.Fits n L) (sl : Option Bool) (u : ℕ → ℝ)
    (hS : ∀ k < L, (∑ i ∈ Finset.range n, so.value x i k) ≠ 0)
    (hT : ∀ k < L, |(∑ i ∈ Finset.range n, so.value x i k) - ∑ i ∈ Finset.range n, si.value y i k|
      < 1e-6 * |∑ i ∈ Finset.range n, so.value x i k|)
    (hst : ∀ k < L, ∀ i j, (i, j) ∈ Law.pairs n s → layerProb K d x y k (i, j) ≠ 0 →
      (so.stored x i k ↔ si.stored y j k))
    {Ω : Type} [MeasurableSpace Ω] (P : Measure Ω) (V X : ℕ → ℕ → ℕ → Ω → ℝ)
    (hN : ∀ k, IsCrembNoise P (V k) (X k)) :
    ∃ g : Ω → MultiObj ι γ κ Adj,
      (∀ᵐ ω ∂P, Sparse.sample (sparseObj K n L (some d) x y dyad s) ref .cremb so si sl u
        (fun k i j => V k i j ω) (fun k i j => X k i j ω) = .ok (g ω)) ∧
      ∀ (h : Ω → List (Q × Bool)) (rc : Ω → Bool),
        let a := fun q i k ω => ask (View.multi .sparse true (g ω).graph) (h ω) (rc ω) q i k
        let w := fun k => meanWeight n s (layerProb K d x y k) (fun i => so.value x i k)
          (fun j => si.value y j k)
        (∀ k < L, (∀ i < n,
          ∫ ω, a .out_strength_by_label i k ω ∂P = ∑ j ∈ Finset.range n, w k i j ∧
          ∫ ω, a .in_strength_by_label i k ω ∂P = ∑ j ∈ Finset.range n, w k j i) ∧
          ∫ ω, a .total_weight_label 0 k ω ∂P
            = ∑ i ∈ Finset.range n, ∑ j ∈ Finset.range n, w k i j) ∧
        (0 < L → ∫ ω, a .total_weight 0 0 ω ∂P
          = ∑ i ∈ Finset.range n, ∑ j ∈ Finset.range n, ∑ k ∈ Finset.range L, w k i j) := by
  have hnn : ∀ᵐ ω ∂P, ∀ k i j, 0 ≤ V k i j ω := by
    rw [ae_all_iff]; exact fun k => noise_nonneg (hN k)
  have hacc : ∀ ω, (∀ k i j, 0 ≤ V k i j ω) → ∃ g,
      Sparse.sample (sparseObj K n L (some d) x y dyad s) ref .cremb so si sl u
        (fun k i j => V k i j ω) (fun k i j => X k i j ω) = .ok g := by
    intro ω hω
    refine (C74_sparse_weights K n L hn hL d x y hx hy hxf hyf dyad s ref hr so si hso hsi sl u
      (fun k i j => V k i j ω) (fun k i j => X k i j ω) hω).1.2 (fun k hk => ⟨hS k hk, hT k hk, ?_⟩)
    intro i j hij hlt
    exact hst k hk i j hij (lt_of_le_of_lt (hω k i j) hlt).ne'
  obtain ⟨mk, -, -⟩ := header_ok (A := Adj) hn hL hr
  have hex : ∀ ω, ∃ g, (∀ k i j, 0 ≤ V k i j ω) →
      Sparse.sample (sparseObj K n L (some d) x y dyad s) ref .cremb so si sl u
        (fun k i j => V k i j ω) (fun k i j => X k i j ω) = .ok g := by
    intro ω
    by_cases hω : ∀ k i j, 0 ≤ V k i j ω
    · obtain ⟨g, hg⟩ := hacc ω hω
      exact ⟨g, fun _ => hg⟩
    · exact ⟨mk (fun _ => .bool (fun _ _ => false)), fun h => absurd h hω⟩
  choose g hg using hex
  have hfacts : ∀ ω, (∀ k i j, 0 ≤ V k i j ω) → Described n L ref (g ω) ∧ ∀ k < L,
      ∃ A, (g ω).adj k = .float A ∧ ∀ i j,
      ((i, j) ∈ Law.pairs n s → V k i j ω < layerProb K d x y k (i, j) →
        A i j = so.value x i k * si.value y j k /
          ((∑ i ∈ Finset.range n, so.value x i k) * layerProb K d x y k (i, j)) * X k i j ω) ∧
      (¬ ((i, j) ∈ Law.pairs n s ∧ V k i j ω < layerProb K d x y k (i, j)) → A i j = 0) := fun ω hω =>
    (C74_sparse_weights K n L hn hL d x y hx hy hxf hyf dyad s ref hr so si hso hsi sl u
      (fun k i j => V k i j ω) (fun k i j => X k i j ω) hω).2.2 (g ω) (hg ω hω)
  have hA : ∀ k < L, ∀ᵐ ω ∂P, ∀ i j,
      ((i, j) ∈ Law.pairs n s → V k i j ω < layerProb K d x y k (i, j) → ((g ω).adj k).num i j
        = so.value x i k * si.value y j k /
          ((∑ i ∈ Finset.range n, so.value x i k) * layerProb K d x y k (i, j)) * X k i j ω) ∧
      (¬ ((i, j) ∈ Law.pairs n s ∧ V k i j ω < layerProb K d x y k (i, j)) →
        ((g ω).adj k).num i j = 0) := by
    intro k hk
    filter_upwards [hnn] with ω hω
    obtain ⟨A, hA1, hA2⟩ := (hfacts ω hω).2 k hk
    rw [hA1]
    exact hA2
  have hent := fun k (hk : k < L) => integral_entry (hN k) (q := layerProb K d x y k)
    (so := fun i => so.value x i k) (si := fun j => si.value y j k)
    (fun e => K.q_mem _) (hA k hk)
  have hnv : ∀ᵐ ω ∂P, (g ω).num_vertices = n ∧ (g ω).num_labels = L := by
    filter_upwards [hnn] with ω hω
    exact ⟨(hfacts ω hω).1.1, (hfacts ω hω).1.2.1⟩
  refine ⟨g, by filter_upwards [hnn] with ω hω using hg ω hω, fun h rc => ?_⟩
  intro a w
  refine ⟨fun k hk => ⟨fun i hi => ⟨?_, ?_⟩, ?_⟩, fun hpos => ?_⟩
  · have : (fun ω => a .out_strength_by_label i k ω) =ᵐ[P]
        fun ω => ∑ j ∈ Finset.range n, ((g ω).adj k).num i j := by
      filter_upwards [hnv] with ω hω
      simp only [a, ask_eq, ← hω.1]
      rfl
    rw [integral_congr_ae this, integral_finsetSum _ (fun j _ => (hent k hk i j).1)]
    exact Finset.sum_congr rfl (fun j _ => (hent k hk i j).2)
  · have : (fun ω => a .in_strength_by_label i k ω) =ᵐ[P]
        fun ω => ∑ j ∈ Finset.range n, ((g ω).adj k).num j i := by
      filter_upwards [hnv] with ω hω
      simp only [a, ask_eq, ← hω.1]
      rfl
    rw [integral_congr_ae this, integral_finsetSum _ (fun j _ => (hent k hk j i).1)]
    exact Finset.sum_congr rfl (fun j _ => (hent k hk j i).2)
  · have : (fun ω => a .total_weight_label 0 k ω) =ᵐ[P]
        fun ω => ∑ i ∈ Finset.range n, ∑ j ∈ Finset.range n, ((g ω).adj k).num i j := by
      filter_upwards [hnv] with ω hω
      simp only [a, ask_eq, ← hω.1]
      rfl
    rw [integral_congr_ae this,
      integral_finsetSum _ (fun i _ => integrable_finsetSum _ (fun j _ => (hent k hk i j).1))]
    refine Finset.sum_congr rfl (fun i _ => ?_)
    rw [integral_finsetSum _ (fun j _ => (hent k hk i j).1)]
    exact Finset.sum_congr rfl (fun j _ => (hent k hk i j).2)
  · have : (fun ω => a .total_weight 0 0 ω) =ᵐ[P]
        fun ω => ∑ i ∈ Finset.range n, ∑ j ∈ Finset.range n, ∑ k ∈ Finset.range L,
          ((g ω).adj k).num i j := by
      filter_upwards [hnv] with ω hω
      simp only [a, ask_eq]
      show Graph.total (g ω).num_vertices
        (Graph.Sparse.project (g ω).num_labels (fun k => ((g ω).adj k).num)) = _
      rw [hω.1, hω.2]
      unfold Graph.total
      refine Finset.sum_congr rfl (fun i _ => Finset.sum_congr rfl (fun j _ => ?_))
      exact Graph.sparse_project_real L _ hpos i j
    have hk : ∀ i j, ∀ k ∈ Finset.range L, Integrable (fun ω => ((g ω).adj k).num i j) P :=
      fun i j k hk => (hent k (Finset.mem_range.1 hk) i j).1
    rw [integral_congr_ae this, integral_finsetSum _ (fun i _ => integrable_finsetSum _ (fun j _ =>
      integrable_finsetSum _ (hk i j)))]
    refine Finset.sum_congr rfl (fun i _ => ?_)
    rw [integral_finsetSum _ (fun j _ => integrable_finsetSum _ (hk i j))]
    refine Finset.sum_congr rfl (fun j _ => ?_)
    rw [integral_finsetSum _ (hk i j)]
    exact Finset.sum_congr rfl (fun k hk => (hent k (Finset.mem_range.1 hk) i j).2)

/-- Noise for all layers exists, and the conditions on the strengths are met. -/
example : (∃ (Ω : Type) (_ : MeasurableSpace Ω) (P : Measure Ω) (V X : ℕ → ℕ → ℕ → Ω → ℝ),
      ∀ k, IsCrembNoise P (V k) (X k)) ∧
    (∑ i ∈ Finset.range 2, (Strength.array (2, 1) (fun _ _ => 1)).value loopX i 0) ≠ 0 ∧
    (∀ i j, (Strength.array (2, 1) (fun _ _ => 1)).stored loopX i 0 ↔
      (Strength.array (2, 1) (fun _ _ => 1)).stored loopX j 0) := by
  obtain ⟨Ω, m, P, V, X, h⟩ := exists_crembNoise
  exact ⟨⟨Ω, m, P, fun _ => V, fun _ => X, fun _ => h⟩, by simp [Strength.value],
    by simp [Strength.stored]⟩

example : (∀ e : ℕ × ℕ, (fun _ => (1 : ℝ) / 2 : ℕ × ℕ → ℝ) e ≠ 0) ∧
    (∑ i ∈ Finset.range 2, (fun _ => (1 : ℝ)) i) ≠ 0 := by
  constructor
  · intro e; norm_num
  · simp

end Multi

end Sampled

end

end Verif
