import Verif.Sampled.MultiProps
import Verif.Graph.CachedProps
import Verif.Coarse
import Mathlib.MeasureTheory.Integral.Bochner.Set

/-!
# Lemmas for C75: averages over the random numbers
-/

namespace Verif

noncomputable section

open XR Spec DiGraphEnsemble MeasureTheory
open scoped ENNReal

/-! ## Random finite sets -/

section Law

variable {E : Type} [DecidableEq E]

/-- Links that are never drawn can be left out. -/
theorem Law.mean_drop {S T : Finset E} (hTS : T ⊆ S) {p : E → ℝ} (h0 : ∀ e ∈ S, e ∉ T → p e = 0)
    (f : Finset E → ℝ) : Law.mean S p f = Law.mean T p f := by
  unfold Law.mean
  symm
  have hsub : T.powerset ⊆ S.powerset := Finset.powerset_mono.2 hTS
  rw [← Finset.sum_subset hsub]
  · refine Finset.sum_congr rfl (fun G hG => ?_)
    congr 1
    unfold Law.prob
    refine Finset.prod_subset hTS (fun e he heT => ?_)
    rw [if_neg (fun h => heT (Finset.mem_powerset.1 hG h)), h0 e he heT, sub_zero]
  · intro G hG hGT
    rw [Finset.mem_powerset] at hG hGT
    obtain ⟨e, heG, heT⟩ := Finset.not_subset.1 hGT
    have : Law.prob S p G = 0 := by
      unfold Law.prob
      refine Finset.prod_eq_zero (hG heG) ?_
      rw [if_pos heG]
      exact h0 e (hG heG) heT
    rw [this, zero_mul]

/-- The average of a function of a random set of links with the law of independent links. -/
theorem integral_of_law {Ω : Type} [MeasurableSpace Ω] {P : Measure Ω} {S : Finset E} {p : E → ℝ}
    (hp : ∀ e ∈ S, 0 ≤ p e ∧ p e ≤ 1)
    {X : Ω → Finset E} (hX : ∀ ω, X ω ⊆ S) (hm : ∀ e ∈ S, MeasurableSet {ω | e ∈ X ω})
    (hl : ∀ G ⊆ S, P {ω | X ω = G} = ENNReal.ofReal (Law.prob S p G)) (f : Finset E → ℝ) :
    Integrable (fun ω => f (X ω)) P ∧ ∫ ω, f (X ω) ∂P = Law.mean S p f := by
  have hmeas : ∀ G, MeasurableSet {ω | X ω = G} := by
    intro G
    by_cases hG : G ⊆ S
    · have : {ω | X ω = G} = ⋂ e ∈ S, (if e ∈ G then {ω | e ∈ X ω} else {ω | e ∈ X ω}ᶜ) := by
        ext ω
        simp only [Set.mem_ofPred_eq, Set.mem_iInter]
        constructor
        · rintro rfl e _
          split
          · assumption
          · assumption
        · intro h
          ext e
          by_cases he : e ∈ S
          · have := h e he
            split at this
            · next h1 => exact ⟨fun _ => h1, fun _ => this⟩
            · next h1 => exact ⟨fun h2 => absurd h2 this, fun h2 => absurd h2 h1⟩
          · exact ⟨fun h1 => absurd (hX ω h1) he, fun h1 => absurd (hG h1) he⟩
      rw [this]
      refine Finset.measurableSet_biInter S (fun e he => ?_)
      split
      · exact hm e he
      · exact (hm e he).compl
    · have : {ω | X ω = G} = ∅ := by
        ext ω
        simp only [Set.mem_ofPred_eq, Set.mem_empty_iff_false, iff_false]
        rintro rfl
        exact hG (hX ω)
      rw [this]; exact MeasurableSet.empty
  have e : (fun ω => f (X ω))
      = fun ω => ∑ G ∈ S.powerset, Set.indicator {ω | X ω = G} (fun _ => f G) ω := by
    funext ω
    rw [Finset.sum_eq_single (X ω)]
    · rw [Set.indicator_of_mem]; rfl
    · intro G _ hG
      exact Set.indicator_of_notMem (fun h => hG (Eq.symm h)) _
    · intro h
      exact absurd (Finset.mem_powerset.2 (hX ω)) h
  have hint : ∀ G ∈ S.powerset, Integrable (Set.indicator {ω | X ω = G} (fun _ => f G)) P := by
    intro G hG
    refine (integrable_indicator_iff (hmeas G)).2 (integrableOn_const ?_)
    rw [hl G (Finset.mem_powerset.1 hG)]
    exact ENNReal.ofReal_ne_top
  rw [e]
  refine ⟨integrable_finsetSum _ hint, ?_⟩
  rw [integral_finsetSum _ hint]
  unfold Law.mean
  refine Finset.sum_congr rfl (fun G hG => ?_)
  rw [integral_indicator_const _ (hmeas G), Measure.real, hl G (Finset.mem_powerset.1 hG),
    ENNReal.toReal_ofReal (Law.prob_nonneg hp G)]
  rfl

/-- The same for links drawn one by one with different numbers. -/
theorem integral_of_draws {Ω : Type} [MeasurableSpace Ω] {P : Measure Ω} {U : ℕ → Ω → ℝ}
    (hU : IsUniform P U) {S : Finset E} {p : E → ℝ} (hp : ∀ e ∈ S, 0 ≤ p e ∧ p e ≤ 1)
    {pos : E → ℕ} (hpos : ∀ e ∈ S, ∀ e' ∈ S, pos e = pos e' → e = e')
    {X : Ω → Finset E} (hX : ∀ ω e, e ∈ X ω ↔ e ∈ S ∧ U (pos e) ω < p e) (f : Finset E → ℝ) :
    Integrable (fun ω => f (X ω)) P ∧ ∫ ω, f (X ω) ∂P = Law.mean S p f := by
  refine integral_of_law hp (fun ω e he => ((hX ω e).1 he).1) ?_ ?_ f
  · intro e he
    have : {ω | e ∈ X ω} = U (pos e) ⁻¹' Set.Iio (p e) := by
      ext ω
      exact (hX ω e).trans ⟨fun h => h.2, fun h => ⟨he, h⟩⟩
    rw [this]
    exact hU.meas _ measurableSet_Iio
  · intro G hG
    let g : {e // e ∈ S} → ℕ := fun e => pos e.1
    have hg : Function.Injective g := fun a b hab => Subtype.ext (hpos _ a.2 _ b.2 hab)
    have hbox := (hU.precomp hg).measure_box Finset.univ (fun e => p e.1)
      (fun e _ => hp e.1 e.2) (fun e => e.1 ∈ G)
    have hset : {ω | X ω = G} = {ω | ∀ e ∈ (Finset.univ : Finset {e // e ∈ S}),
        U (g e) ω < p e.1 ↔ e.1 ∈ G} := by
      ext ω
      constructor
      · rintro rfl e _
        exact ⟨fun h => (hX ω e.1).2 ⟨e.2, h⟩, fun h => ((hX ω e.1).1 h).2⟩
      · intro h
        ext e
        refine (hX ω e).trans ⟨fun h' => (h ⟨e, h'.1⟩ (Finset.mem_univ _)).1 h'.2, fun h' => ?_⟩
        exact ⟨hG h', (h ⟨e, hG h'⟩ (Finset.mem_univ _)).2 h'⟩
    rw [hset, hbox]
    congr 1
    unfold Law.prob
    rw [Finset.univ_eq_attach, Finset.prod_attach S (fun e => if e ∈ G then p e else 1 - p e)]

end Law

/-! ## Counting links -/

namespace Sampled

open Graph (Mat Row)

theorem ne0_num {A : Adj} {G : Set (ℕ × ℕ)} (h : A.Links G) (i j : ℕ) :
    Graph.ne0 A.num i j = true ↔ (i, j) ∈ G := by
  cases A with
  | bool B =>
    refine Iff.trans ?_ (h i j)
    unfold Graph.ne0 Adj.num
    cases hb : B i j <;> simp [Graph.Dtype.nz, Graph.Dtype.num, hb]
  | float B =>
    have := h i j
    by_cases hG : (i, j) ∈ G
    · have h1 : B i j = 1 := this.1 hG
      simp [Graph.ne0, Adj.num, Graph.Dtype.nz, h1, hG]
    · have h1 : B i j = 0 := this.2 hG
      simp [Graph.ne0, Adj.num, Graph.Dtype.nz, h1, hG]

/-- The counts that the queries return, for a boolean matrix with the links `G`. -/
theorem counts {n : ℕ} {s : Bool} {B : Mat Bool} {G : Finset (ℕ × ℕ)} (hG : G ⊆ Law.pairs n s)
    (hB : ∀ i j, B i j = true ↔ (i, j) ∈ G) :
    Graph.fullTotal n B = (G.card : ℝ) ∧ ∀ i < n,
      Graph.rowSums n B i = (Law.outDegree G i : ℝ) ∧
      Graph.colSums n B i = (Law.inDegree G i : ℝ) ∧
      Graph.colSums n (Graph.orT B) i = (Law.degree n G i : ℝ) ∧
      Graph.rowSums n (Graph.orT B) i = (Law.degree n G i : ℝ) := by
  have hlt : ∀ i j, (i, j) ∈ G → i < n ∧ j < n := fun i j h => by
    have := Law.mem_pairs.1 (hG h)
    exact ⟨this.1, this.2.1⟩
  have hnum : ∀ b : Bool, (Graph.Dtype.num b : ℝ) = if b = true then 1 else 0 := fun _ => rfl
  refine ⟨Graph.total_card n B G hlt (fun i _ j _ => hB i j), fun i hi => ⟨?_, ?_, ?_, ?_⟩⟩
  · unfold Graph.rowSums Graph.sum1 Law.outDegree
    simp only [hnum, hB]
    rw [← Finset.sum_filter, Finset.sum_const, nsmul_eq_mul, mul_one, Nat.cast_inj]
    refine Finset.card_bij (fun j _ => (i, j)) ?_ ?_ ?_
    · intro j hj
      exact Finset.mem_filter.2 ⟨(Finset.mem_filter.1 hj).2, rfl⟩
    · intro a _ b _ hab
      exact (Prod.mk.inj hab).2
    · rintro ⟨a, b⟩ hab
      obtain ⟨h1, h2⟩ := Finset.mem_filter.1 hab
      cases h2
      exact ⟨b, Finset.mem_filter.2 ⟨Finset.mem_range.2 (hlt _ _ h1).2, h1⟩, rfl⟩
  · unfold Graph.colSums Graph.sum0 Law.inDegree
    simp only [hnum, hB]
    rw [← Finset.sum_filter, Finset.sum_const, nsmul_eq_mul, mul_one, Nat.cast_inj]
    refine Finset.card_bij (fun j _ => (j, i)) ?_ ?_ ?_
    · intro j hj
      exact Finset.mem_filter.2 ⟨(Finset.mem_filter.1 hj).2, rfl⟩
    · intro a _ b _ hab
      exact (Prod.mk.inj hab).1
    · rintro ⟨a, b⟩ hab
      obtain ⟨h1, h2⟩ := Finset.mem_filter.1 hab
      cases h2
      exact ⟨a, Finset.mem_filter.2 ⟨Finset.mem_range.2 (hlt _ _ h1).1, h1⟩, rfl⟩
  · unfold Graph.colSums Graph.sum0 Law.degree Graph.orT
    simp only [hnum, Bool.or_eq_true, hB]
    rw [← Finset.sum_filter, Finset.sum_const, nsmul_eq_mul, mul_one, Nat.cast_inj]
    congr 1
    ext j
    simp only [Finset.mem_filter]
    exact and_congr_right (fun _ => or_comm)
  · unfold Graph.rowSums Graph.sum1 Law.degree Graph.orT
    simp only [hnum, Bool.or_eq_true, hB]
    rw [← Finset.sum_filter, Finset.sum_const, nsmul_eq_mul, mul_one, Nat.cast_inj]

/-- The links in a projection. -/
theorem ne0_project {b : Graph.Backend} {L : ℕ} (hL : 0 < L) {A : ℕ → Adj} {G : ℕ → Set (ℕ × ℕ)}
    (h : ∀ k < L, (A k).Links (G k)) (i j : ℕ) :
    Graph.ne0 (match b with
      | .dense => Graph.Dense.project L (fun k => (A k).num)
      | .sparse => Graph.Sparse.project L (fun k => (A k).num)) i j = true
      ↔ ∃ k < L, (i, j) ∈ G k := by
  have e : (match b with
      | .dense => Graph.Dense.project L (fun k => (A k).num)
      | .sparse => Graph.Sparse.project L (fun k => (A k).num)) i j
      = ∑ k ∈ Finset.range L, (A k).num i j := by
    cases b with
    | dense => rfl
    | sparse => exact Graph.sparse_project_real L _ hL i j
  have hnn : ∀ k ∈ Finset.range L, 0 ≤ (A k).num i j := by
    intro k hk
    have := h k (Finset.mem_range.1 hk)
    cases hA : A k with
    | bool B =>
      show (0 : ℝ) ≤ (if B i j = true then 1 else 0)
      split <;> norm_num
    | float B =>
      rw [hA] at this
      have := this i j
      by_cases hG : (i, j) ∈ G k
      · show 0 ≤ B i j
        rw [this.1 hG]; norm_num
      · show 0 ≤ B i j
        rw [this.2 hG]
  have hz : ∀ k < L, (A k).num i j ≠ 0 ↔ (i, j) ∈ G k := by
    intro k hk
    rw [← ne0_num (h k hk)]
    simp [Graph.ne0, Graph.Dtype.nz]
  have h1 : Graph.ne0 (match b with
      | .dense => Graph.Dense.project L (fun k => (A k).num)
      | .sparse => Graph.Sparse.project L (fun k => (A k).num)) i j = true
      ↔ ∑ k ∈ Finset.range L, (A k).num i j ≠ 0 := by
    rw [← e]
    simp [Graph.ne0, Graph.Dtype.nz]
  rw [h1, Ne, Finset.sum_eq_zero_iff_of_nonneg hnn]
  push Not
  constructor
  · rintro ⟨k, hk, h2⟩
    exact ⟨k, Finset.mem_range.1 hk, (hz k (Finset.mem_range.1 hk)).1 h2⟩
  · rintro ⟨k, hk, h2⟩
    exact ⟨k, Finset.mem_range.2 hk, (hz k hk).2 h2⟩

end Sampled

end

end Verif
