import Verif.Cond.ScaleLemmas

/-! # C88: the scale-invariant model at two scales -/

namespace Verif.Cond

open XR Spec Ens DiGraphEnsemble
open scoped ENNReal NNReal
open MeasureTheory

/-- The single-layer scale-invariant models of the three backends. -/
inductive Inv (d : ℝ≥0∞) (x y : ℕ → ℝ≥0∞) : Ens → Prop
  | sparse : Inv d x y (sparseInv d x y (fun _ _ => 1))
  | dense (w) : Inv d x y (denseInv d x y w)
  | spark (w) : Inv d x y (sparkInv d x y w)

/-- The sum of the property `v` over the vertices of the group `a`. -/
noncomputable def total (n : ℕ) (groups : ℕ → ℕ) (v : ℕ → ℝ≥0∞) (a : ℕ) : ℝ≥0∞ :=
  ∑ i ∈ (Finset.range n).filter (fun i => groups i = a), v i

/-- `E` is a scale-invariant model of `n` vertices and `E'` a scale-invariant model of their
groups: the parameter is the same and the properties of a group are the sums of those of its
vertices.  Multi-layer models: label by label. -/
inductive TwoScales (n : ℕ) (groups : ℕ → ℕ) : Ens → Ens → Prop
  | single (d x y E E') (h : Inv d x y E) (h' : Inv d (total n groups x) (total n groups y) E') :
      TwoScales n groups E E'
  | sparseMulti (L : ℕ) (d : ℕ → ℝ≥0∞) (x y X Y : ℕ → List (ℕ × ℝ≥0∞))
      (hs : ∀ i, RowSorted (x i) ∧ RowSorted (y i) ∧ RowSorted (X i) ∧ RowSorted (Y i))
      (hL : ∀ i, (∀ e ∈ x i, e.1 < L) ∧ (∀ e ∈ y i, e.1 < L) ∧ (∀ e ∈ X i, e.1 < L) ∧
        (∀ e ∈ Y i, e.1 < L))
      (hX : ∀ a k, entry (X a) k = total n groups (fun i => entry (x i) k) a)
      (hY : ∀ a k, entry (Y a) k = total n groups (fun i => entry (y i) k) a) :
      TwoScales n groups (sparseMultiInv d x y) (sparseMultiInv d X Y)
  | denseMulti (L : ℕ) (d : ℕ → ℝ≥0∞) (x y : ℕ → ℕ → ℝ≥0∞) :
      TwoScales n groups (denseMultiInv L d x y)
        (denseMultiInv L d (fun a k => total n groups (fun i => x i k) a)
          (fun a k => total n groups (fun i => y i k) a))

theorem Inv.coherent {d x y E} (h : Inv d x y E) : E.Coherent := by
  cases h with
  | sparse => exact isModel_coherent (.sparseInv _ _ _ _)
  | dense w => exact isModel_coherent (.denseInv _ _ _ _)
  | spark w => exact isModel_coherent (.sparkInv _ _ _ _)

theorem Inv.prob_eq {d x y E} (h : Inv d x y E) :
    E.prob = fun e => invProb (d * x e.1 * y e.2) := by
  cases h with
  | sparse => rw [(Is.sparseInv d x y _).prob_eq]; simp only [mul_one]
  | dense w => exact (Is.denseInv d x y w).prob_eq
  | spark w => exact (Is.sparkInv d x y w).prob_eq

theorem TwoScales.coherent {n groups E E'} (h : TwoScales n groups E E') :
    E.Coherent ∧ E'.Coherent := by
  cases h with
  | single d x y E E' h h' => exact ⟨h.coherent, h'.coherent⟩
  | sparseMulti L d x y X Y hs hL hX hY =>
    exact ⟨isModel_coherent (.sparseMultiInv _ _ _ (fun i => (hs i).1) (fun i => (hs i).2.1)),
      isModel_coherent (.sparseMultiInv _ _ _ (fun i => (hs i).2.2.1) (fun i => (hs i).2.2.2))⟩
  | denseMulti L d x y =>
    exact ⟨isModel_coherent (.denseMultiInv _ _ _ _), isModel_coherent (.denseMultiInv _ _ _ _)⟩

theorem total_mul (n : ℕ) (groups : ℕ → ℕ) (d : ℝ≥0∞) (x y : ℕ → ℝ≥0∞) (a b : ℕ) :
    d * total n groups x a * total n groups y b
      = ∑ e ∈ (Finset.range n).filter (fun i => groups i = a) ×ˢ
          (Finset.range n).filter (fun i => groups i = b), d * x e.1 * y e.2 := by
  unfold total
  rw [mul_assoc, Finset.sum_mul_sum, Finset.mul_sum, Finset.sum_product]
  exact Finset.sum_congr rfl (fun i _ => by simp only [Finset.mul_sum, mul_assoc])

theorem TwoScales.absent {n M groups E E'} (h : TwoScales n groups E E') {s s' : Bool}
    (hs : s' = true → s = true) (k : ℕ × ℕ) (hk : k ∈ Law.pairs M s') :
    1 - E'.prob k = ∏ e ∈ Law.block (Law.pairs n s) groups k, (1 - E.prob e) := by
  rw [Law.block_pairs hs hk]
  cases h with
  | single d x y E E' h h' =>
    rw [h.prob_eq, h'.prob_eq]
    dsimp only
    rw [total_mul, invProb_complement_sum]
  | sparseMulti L d x y X Y hs' hL hX hY =>
    rw [(Is.sparseMultiInv L d x y (fun i => (hs' i).1) (fun i => (hs' i).2.1)
        (fun i => (hL i).1) (fun i => (hL i).2.1)).prob_eq,
      (Is.sparseMultiInv L d X Y (fun i => (hs' i).2.2.1) (fun i => (hs' i).2.2.2)
        (fun i => (hL i).2.2.1) (fun i => (hL i).2.2.2)).prob_eq]
    simp only [sub_sub_cancel, hX, hY, total_mul, invProb_complement_sum]
    exact Finset.prod_comm
  | denseMulti L d x y =>
    rw [(Is.denseMultiInv L d x y).prob_eq, (Is.denseMultiInv L d _ _).prob_eq]
    simp only [sub_sub_cancel, total_mul, invProb_complement_sum]
    exact Finset.prod_comm

section
variable {n M : ℕ} {groups : ℕ → ℕ} {E E' : Ens} {s s' : Bool}

/-- **C88**, law: the graph obtained from the fine ensemble by merging the vertices has the law of
the coarse ensemble.  Either self loops are allowed in both ensembles, or links inside groups are
left out. -/
theorem C88_merged_law (h : TwoScales n groups E E') (hs : s' = true → s = true)
    (A : Finset (ℕ × ℕ)) (hA : A ⊆ Law.pairs M s') :
    Law.mean (Law.pairs n s) E.prob
        (fun G => if Law.merge groups G ∩ Law.pairs M s' = A then 1 else 0)
      = Law.prob (Law.pairs M s') E'.prob A :=
  Law.merge_prob _ _ (fun k hk => h.absent hs k hk) hA

/-- With self loops nothing is left out. -/
theorem C88_merged_law_loops (h : TwoScales n groups E E') (hg : ∀ i < n, groups i < M)
    (A : Finset (ℕ × ℕ)) (hA : A ⊆ Law.pairs M true) :
    Law.coarseProb (Law.pairs n true) E.prob groups A = Law.prob (Law.pairs M true) E'.prob A := by
  rw [← C88_merged_law h (s := true) (fun _ => rfl) A hA]
  unfold Law.coarseProb
  refine Law.mean_congr (fun G hG => ?_)
  rw [Finset.inter_eq_left.2 (Law.merge_subset hg hG)]

/-- **C88**, samples: merging a sample of the fine model and sampling the coarse model give each
graph of the groups with the same probability. -/
theorem C88_merged_sample (h : TwoScales n groups E E') (hs : s' = true → s = true)
    {Ω Ω' : Type} [MeasurableSpace Ω] [MeasurableSpace Ω'] (P : Measure Ω) (P' : Measure Ω')
    (U : ℕ → Ω → ℝ) (U' : ℕ → Ω' → ℝ) (hU : IsUniform P U) (hU' : IsUniform P' U')
    (A : Finset (ℕ × ℕ)) (hA : A ⊆ Law.pairs M s') :
    P {ω | Law.merge groups (E.binary_sample_stream n s (fun k => U k ω)).toFinset
          ∩ Law.pairs M s' = A}
      = P' {ω | (E'.binary_sample_stream M s' (fun k => U' k ω)).toFinset = A} := by
  rw [sample_event h.coherent.1 n s P U hU (fun G => Law.merge groups G ∩ Law.pairs M s' = A),
    C88_merged_law h hs A hA, (C14_sample_law h.coherent.2 M s' P' U' hU' A hA).1]

/-- **C88**, expected values: the expected number of edges and the expected degrees of the coarse
model are the means of the numbers of links and of the degrees of the merged graph. -/
theorem C88_expected (h : TwoScales n groups E E') (hs : s' = true → s = true) :
    let m := fun f : Finset (ℕ × ℕ) → ℝ => Law.mean (Law.pairs n s) E.prob
      (fun G => f (Law.merge groups G ∩ Law.pairs M s'))
    E'.exp_edges M s' = fin (m (fun A => (A.card : ℝ))) ∧
    ∀ a < M,
      (E'.exp_degrees M s').exp_d_out a = fin (m (fun A => (Law.outDegree A a : ℝ))) ∧
      (E'.exp_degrees M s').exp_d_in a = fin (m (fun A => (Law.inDegree A a : ℝ))) ∧
      (E'.exp_degrees M s').exp_d a = fin (m (fun A => (Law.degree M A a : ℝ))) := by
  dsimp only
  have hm := fun f => Law.merge_mean (Law.pairs M s') (Law.pairs n s)
    (fun k hk => h.absent (M := M) hs k hk) f
  refine ⟨?_, fun a ha => ?_⟩
  · rw [C09_expected_num_edges h.coherent.2 M s']
    exact congrArg fin (hm (fun A => (A.card : ℝ))).symm
  · obtain ⟨h1, h2, h3⟩ := C10_expected_degrees h.coherent.2 M s' a ha
    rw [h1, h2, h3]
    exact ⟨congrArg fin (hm (fun A => (Law.outDegree A a : ℝ))).symm,
      congrArg fin (hm (fun A => (Law.inDegree A a : ℝ))).symm,
      congrArg fin (hm (fun A => (Law.degree M A a : ℝ))).symm⟩

end

/-! ## Sampling in two steps -/

section
variable {n M : ℕ} {groups : ℕ → ℕ} {d : ℝ≥0∞} {x y : ℕ → ℝ≥0} {E E' : Ens}
  {adjOf : Finset (ℕ × ℕ) → Mat}

theorem inv_pr (h : Inv d (fun i => x i) (fun i => y i) E) : E.prob = pr d x y := by
  rw [h.prob_eq]
  funext e
  rw [pr_eq]

theorem coarse_prob (h : Inv d (fun i => x i) (fun i => y i) E)
    (h' : Inv d (total n groups (fun i => x i)) (total n groups (fun i => y i)) E')
    (hg : ∀ i < n, groups i < M) {A : Finset (ℕ × ℕ)} (hA : A ⊆ Law.pairs M true) :
    Law.coarseProb (Law.pairs n true) (pr d x y) groups A
      = Law.prob (Law.pairs M true) E'.prob A := by
  rw [← inv_pr h]
  exact C88_merged_law_loops (.single d _ _ E E' h h') hg A hA

/-- The graphs that merge to an impossible graph are impossible. -/
theorem prob_zero {G A : Finset (ℕ × ℕ)}
    (h0 : Law.coarseProb (Law.pairs n true) (pr d x y) groups A = 0) (hG : G ⊆ Law.pairs n true)
    (hm : Law.merge groups G = A) : Law.prob (Law.pairs n true) (pr d x y) G = 0 := by
  unfold Law.coarseProb Law.mean at h0
  dsimp only at h0
  rw [Finset.sum_eq_zero_iff_of_nonneg] at h0
  · have := h0 G (Finset.mem_powerset.2 hG)
    rwa [if_pos hm, mul_one] at this
  · intro H _
    refine mul_nonneg (Law.prob_nonneg (fun e _ => pr_mem d x y e) H) ?_
    split <;> norm_num

theorem prob_split (h : Inv d (fun i => x i) (fun i => y i) E)
    (h' : Inv d (total n groups (fun i => x i)) (total n groups (fun i => y i)) E')
    (hg : ∀ i < n, groups i < M) {G : Finset (ℕ × ℕ)} (hG : G ⊆ Law.pairs n true) :
    Law.prob (Law.pairs n true) E.prob G
      = Law.prob (Law.pairs M true) E'.prob (Law.merge groups G)
        * Law.condProb (Law.pairs n true) (pr d x y) groups (Law.merge groups G) G := by
  unfold Law.condProb
  rw [if_pos rfl, coarse_prob h h' hg (Law.merge_subset hg hG), inv_pr h]
  by_cases h0 : Law.prob (Law.pairs M true) E'.prob (Law.merge groups G) = 0
  · rw [h0, div_zero, mul_zero]
    rw [← coarse_prob h h' hg (Law.merge_subset hg hG)] at h0
    exact prob_zero h0 hG rfl
  · rw [mul_div_cancel₀ _ h0]

/-- **C88**, two steps: sampling the coarse model and then the conditional model given the sampled
coarse graph gives every graph with the probability with which the fine model gives it. -/
theorem C88_two_steps (h : Inv d (fun i => x i) (fun i => y i) E)
    (h' : Inv d (total n groups (fun i => x i)) (total n groups (fun i => y i)) E')
    (hg : ∀ i < n, groups i < M) (hadj : ∀ A ⊆ Law.pairs M true, Stores M (adjOf A) A)
    (so si : Option (ℕ → ℝ)) (ex : ℕ → ℕ → ℝ)
    {Ω Ω₁ Ω₂ : Type} [MeasurableSpace Ω] [MeasurableSpace Ω₁] [MeasurableSpace Ω₂]
    (P : Measure Ω) (P₁ : Measure Ω₁) (P₂ : Measure Ω₂) [SFinite P₂]
    (U : ℕ → Ω → ℝ) (U₁ : ℕ → Ω₁ → ℝ) (U₂ : ℕ × ℕ → Ω₂ → ℝ)
    (hU : IsUniform P U) (hU₁ : IsUniform P₁ U₁) (hU₂ : IsUniform P₂ U₂)
    (G : Finset (ℕ × ℕ)) (hG : G ⊆ Law.pairs n true) :
    (P₁.prod P₂) {ω | ∃ rows, sample (mk n M d x y groups
          (adjOf (E'.binary_sample_stream M true (fun k => U₁ k ω.1)).toFinset) true)
          .none so si (fun i j => U₂ (i, j) ω.2) ex = .ok rows ∧ (rows.map Prod.fst).toFinset = G}
      = P {ω | (E.binary_sample_stream n true (fun k => U k ω)).toFinset = G} := by
  have hsub : ∀ ω, (E'.binary_sample_stream M true (fun k => U₁ k ω)).toFinset
      ⊆ Law.pairs M true := by
    intro ω e he
    rw [List.mem_toFinset, binary_sample_stream_eq, mem_binary_sample h'.coherent] at he
    exact he.1
  have hP := fun A hA => (C14_sample_law h'.coherent M true P₁ U₁ hU₁ A hA).1
  have hR := fun A (hA : A ⊆ Law.pairs M true) hc =>
    C40_sample_law (d := d) (x := x) (y := y) (hadj A hA) hg hc so si ex P₂ U₂ hU₂ G hG
  set C : Ω₁ → Finset (ℕ × ℕ) := fun ω =>
    (E'.binary_sample_stream M true (fun k => U₁ k ω)).toFinset with hC
  set R : Finset (ℕ × ℕ) → Set Ω₂ := fun A => {ω | ∃ rows, sample (mk n M d x y groups
    (adjOf A) true) .none so si (fun i j => U₂ (i, j) ω) ex = .ok rows ∧
      (rows.map Prod.fst).toFinset = G} with hRdef
  have hA0 := Law.merge_subset (M := M) hg hG
  rw [(C14_sample_law h.coherent n true P U hU G hG).1, prob_split h h' hg hG,
    ENNReal.ofReal_mul (Law.prob_nonneg (fun e _ => h'.coherent.prob_mem e) _)]
  have hmain : ∀ A ⊆ Law.pairs M true, (P₁.prod P₂) ({ω | C ω = A} ×ˢ R A)
      = ENNReal.ofReal (Law.prob (Law.pairs M true) E'.prob A)
        * ENNReal.ofReal (Law.condProb (Law.pairs n true) (pr d x y) groups A G) := by
    intro A hA
    rw [Measure.prod_prod]
    have h1 : P₁ {ω | C ω = A} = ENNReal.ofReal (Law.prob (Law.pairs M true) E'.prob A) := hP A hA
    rw [h1]
    by_cases h0 : Law.prob (Law.pairs M true) E'.prob A = 0
    · rw [h0, ENNReal.ofReal_zero, zero_mul, zero_mul]
    · rw [← coarse_prob h h' hg hA] at h0
      congr 1
      exact hR A hA h0
  refine Eq.trans ?_ (hmain _ hA0)
  apply le_antisymm
  · have hle : {ω : Ω₁ × Ω₂ | ω.2 ∈ R (C ω.1)}
        ⊆ ({ω | C ω = Law.merge groups G} ×ˢ R (Law.merge groups G))
          ∪ ⋃ A ∈ (Law.pairs M true).powerset.erase (Law.merge groups G),
            ({ω | C ω = A} ×ˢ R A) := by
      rintro ⟨ω₁, ω₂⟩ hω
      by_cases hm : C ω₁ = Law.merge groups G
      · left
        exact ⟨hm, hm ▸ hω⟩
      · right
        simp only [Set.mem_iUnion]
        exact ⟨C ω₁, Finset.mem_erase.2 ⟨hm, Finset.mem_powerset.2 (hsub ω₁)⟩, rfl, hω⟩
    refine (measure_mono hle).trans ((measure_union_le _ _).trans ?_)
    have hz : (P₁.prod P₂) (⋃ A ∈ (Law.pairs M true).powerset.erase (Law.merge groups G),
        ({ω | C ω = A} ×ˢ R A)) = 0 := by
      refine (measure_biUnion_null_iff (Finset.countable_toSet _)).2 (fun A hA => ?_)
      have hA' := Finset.mem_erase.1 hA
      rw [hmain A (Finset.mem_powerset.1 hA'.2)]
      unfold Law.condProb
      rw [if_neg (Ne.symm hA'.1), ENNReal.ofReal_zero, mul_zero]
    rw [hz, add_zero]
  · refine measure_mono ?_
    rintro ⟨ω₁, ω₂⟩ ⟨hm, hω⟩
    have hm' : C ω₁ = Law.merge groups G := hm
    show ω₂ ∈ R (C ω₁)
    rw [hm']; exact hω

/-- **C88**, likelihood: the log-likelihood of a graph in the fine model is that of the merged graph
in the coarse model plus the log-likelihood of the graph in the conditional model; and minus
infinity if the merged graph is impossible in the coarse model. -/
theorem C88_likelihood (h : Inv d (fun i => x i) (fun i => y i) E)
    (h' : Inv d (total n groups (fun i => x i)) (total n groups (fun i => y i)) E')
    (hg : ∀ i < n, groups i < M) {adj g : Mat} {G : Finset (ℕ × ℕ)} (hG : Stores n g G)
    (hGpos : ∀ i j, (i, j) ∈ G → 0 < g.at i j) (hA : Stores M adj (Law.merge groups G))
    (hApos : ∀ a b, (a, b) ∈ Law.merge groups G → 0 < adj.at a b) :
    (E'.likelihood M (linkOf (Law.merge groups G)) true ≠ ninf →
      ∃ l, log_likelihood (mk n M d x y groups adj true) (n, n) g = .ok l ∧
        E.likelihood n (linkOf G) true
          = E'.likelihood M (linkOf (Law.merge groups G)) true + l) ∧
    (E'.likelihood M (linkOf (Law.merge groups G)) true = ninf →
      E.likelihood n (linkOf G) true = ninf) := by
  have hsub : G ⊆ Law.pairs n true := by
    rintro ⟨i, j⟩ he
    exact Law.mem_pairs.2 ⟨((hG.mem i j).1 he).1, hG.lt i j he, Or.inr rfl⟩
  have hA0 := Law.merge_subset (M := M) hg hsub
  have hnn := Law.prob_nonneg (S := Law.pairs M true) (fun e _ => h'.coherent.prob_mem e)
    (Law.merge groups G)
  rw [(C12_log_likelihood h'.coherent M true (Law.merge groups G)).1,
    (C12_log_likelihood h.coherent n true G).1, prob_split h h' hg hsub]
  refine ⟨fun hne => ?_, fun h0 => ?_⟩
  · rw [Ne, elog_eq_ninf, not_le] at hne
    have hc : Law.coarseProb (Law.pairs n true) (pr d x y) groups (Law.merge groups G) ≠ 0 := by
      rw [coarse_prob h h' hg hA0]; exact hne.ne'
    refine ⟨_, C56_log_likelihood hA hApos hG hGpos hg (Or.inl rfl) hc, ?_⟩
    refine elog_mul hne ?_
    unfold Law.condProb
    rw [if_pos rfl]
    refine div_nonneg (Law.prob_nonneg (fun e _ => pr_mem d x y e) G) ?_
    rw [coarse_prob h h' hg hA0]; exact hnn
  · rw [elog_eq_ninf] at h0
    rw [le_antisymm h0 hnn, zero_mul, elog_eq_ninf]

/-- **C88**, expected number of edges: that of the fine model is the mean over the graphs of the
coarse model of that of the conditional model. -/
theorem C88_edges (h : Inv d (fun i => x i) (fun i => y i) E)
    (h' : Inv d (total n groups (fun i => x i)) (total n groups (fun i => y i)) E')
    (hg : ∀ i < n, groups i < M) (hadj : ∀ A ⊆ Law.pairs M true, Stores M (adjOf A) A) :
    ∃ edges : Finset (ℕ × ℕ) → ℝ,
      (∀ A ⊆ Law.pairs M true, E'.likelihood M (linkOf A) true ≠ ninf →
        expected_num_edges (mk n M d x y groups (adjOf A) true) = .ok (fin (edges A))) ∧
      E.exp_edges n true = fin (Law.mean (Law.pairs M true) E'.prob edges) := by
  refine ⟨fun A => Law.condMean (Law.pairs n true) (pr d x y) groups A (fun G => (G.card : ℝ)),
    fun A hA hne => ?_, ?_⟩
  · rw [(C12_log_likelihood h'.coherent M true A).1, Ne, elog_eq_ninf, not_le] at hne
    refine C41_edges (hadj A hA) hg ?_
    rw [coarse_prob h h' hg hA]; exact hne.ne'
  · rw [C09_expected_num_edges h.coherent, inv_pr h,
      Law.mean_fiber (pr d x y) (Law.pairs M true).powerset (Law.merge groups)
        (fun G hG => Finset.mem_powerset.2 (Law.merge_subset hg hG)), Law.mean, fin_inj]
    refine Finset.sum_congr rfl (fun A hA => ?_)
    rw [← coarse_prob h h' hg (Finset.mem_powerset.1 hA), Law.condMean_eq]
    by_cases h0 : Law.coarseProb (Law.pairs n true) (pr d x y) groups A = 0
    · rw [h0, zero_mul]
      unfold Law.mean
      refine Finset.sum_eq_zero (fun G hG => ?_)
      dsimp only
      by_cases hm : Law.merge groups G = A
      · rw [prob_zero h0 (Finset.mem_powerset.1 hG) hm, zero_mul]
      · rw [if_neg hm, zero_mul, mul_zero]
    · rw [mul_div_cancel₀ _ h0]

end

/-! ## Examples -/

/-- Four vertices in two groups, in all backends. -/
example : Inv 1 (fun _ => ((1 : ℝ≥0) : ℝ≥0∞)) (fun _ => ((1 : ℝ≥0) : ℝ≥0∞))
      (sparseInv 1 (fun _ => 1) (fun _ => 1) (fun _ _ => 1)) ∧
    Inv 1 (total 4 exGroups (fun _ => ((1 : ℝ≥0) : ℝ≥0∞)))
      (total 4 exGroups (fun _ => ((1 : ℝ≥0) : ℝ≥0∞)))
      (denseInv 1 (total 4 exGroups (fun _ => 1)) (total 4 exGroups (fun _ => 1)) (fun _ _ => 1)) ∧
    total 4 exGroups (fun _ => 1) 0 = 2 ∧ ∀ i < 4, exGroups i < 2 := by
  refine ⟨.sparse, .dense _, ?_, by decide⟩
  have : ((Finset.range 4).filter (fun i => exGroups i = 0)).card = 2 := by decide
  simp [total, this]

/-- A matrix for each graph of the groups. -/
example (M : ℕ) : ∃ adjOf : Finset (ℕ × ℕ) → Mat, ∀ A ⊆ Law.pairs M true, Stores M (adjOf A) A := by
  refine ⟨fun A => setAdj M (.dense (fun a b => if (a, b) ∈ A then 1 else 0)), fun A hA => ?_⟩
  have h := (C57_dense_partial (M := M) (fun a b => if (a, b) ∈ A then 1 else 0)).1
  convert h
  ext ⟨a, b⟩
  simp only [Finset.mem_filter, Finset.mem_product, Finset.mem_range]
  constructor
  · intro hm
    have := Law.mem_pairs.1 (hA hm)
    exact ⟨⟨this.1, this.2.1⟩, by simp [hm]⟩
  · rintro ⟨_, hm⟩
    by_contra hc
    simp [hc] at hm

/-- Without self loops in the fine model the coarse model with self loops is not the law of the
merged graph: two vertices in one group are linked less often than the coarse model says. -/
theorem C88_loops_needed :
    TwoScales 2 (fun _ => 0) (sparseInv 1 (fun _ => 1) (fun _ => 1) (fun _ _ => 1))
      (sparseInv 1 (total 2 (fun _ => 0) (fun _ => 1)) (total 2 (fun _ => 0) (fun _ => 1))
        (fun _ _ => 1)) ∧
    Law.mean (Law.pairs 2 false) (sparseInv 1 (fun _ => 1) (fun _ => 1) (fun _ _ => 1)).prob
        (fun G => if Law.merge (fun _ => 0) G ∩ Law.pairs 1 true = {(0, 0)} then 1 else 0)
      < Law.prob (Law.pairs 1 true) (sparseInv 1 (total 2 (fun _ => 0) (fun _ => 1))
        (total 2 (fun _ => 0) (fun _ => 1)) (fun _ _ => 1)).prob {(0, 0)} := by
  refine ⟨.single 1 (fun _ => 1) (fun _ => 1) _ _ .sparse .sparse, ?_⟩
  have hp : Law.pairs 1 true = {(0, 0)} := by decide
  have hb : Law.block (Law.pairs 2 false) (fun _ => 0) (0, 0) = {(0, 1), (1, 0)} := by decide
  rw [Inv.prob_eq .sparse, Inv.prob_eq .sparse]
  rw [Law.merge_prob (q := fun _ => invProb 2) (Law.pairs 1 true) (Law.pairs 2 false) (fun k hk => by
    rw [hp, Finset.mem_singleton] at hk
    rw [hk, hb, Finset.prod_pair (by decide), mul_one, mul_one]
    have := invProb_complement_sum (Finset.range 2) (fun _ => 1)
    simpa [Finset.prod_range_succ, sq] using this) (by rw [hp])]
  unfold Law.prob
  rw [hp, Finset.prod_singleton, Finset.prod_singleton, if_pos (Finset.mem_singleton_self _)]
  have ht : total 2 (fun _ => 0) (fun _ => 1) 0 = 2 := by simp [total]
  dsimp only
  rw [ht, one_mul, if_pos (Finset.mem_singleton_self _),
    invProb_of_ne_top (by norm_num), invProb_of_ne_top (ENNReal.mul_ne_top (by norm_num) (by norm_num))]
  have : Real.exp (-(2 * 2 : ℝ≥0∞).toReal) < Real.exp (-(2 : ℝ≥0∞).toReal) := by
    rw [Real.exp_lt_exp]; simp
  linarith

end Verif.Cond
