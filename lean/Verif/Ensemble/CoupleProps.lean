import Verif.Ensemble.RepeatProps
import Verif.Prob.Props

/-!
# C96: larger parameters and properties give more links

`Ens.Le E E'`: the ensembles are of the same class and every parameter and property of `E` is at most
that of `E'`.
-/

namespace Verif

open XR Spec MeasureTheory
open scoped ENNReal

/-- Two ensembles of the same class, the parameters and properties of the first being at most those of
the second. -/
inductive Ens.Le : Ens → Ens → Prop
  | sparseFit {d d' : ℝ≥0∞} {x x' y y' : ℕ → ℝ≥0∞} {z z' : ℕ → ℕ → ℝ≥0∞} (hd : d ≤ d')
      (hx : ∀ i, x i ≤ x' i) (hy : ∀ j, y j ≤ y' j) (hz : ∀ i j, z i j ≤ z' i j) :
      Ens.Le (Ens.sparseFit d x y z) (Ens.sparseFit d' x' y' z')
  | sparseInv {d d' : ℝ≥0∞} {x x' y y' : ℕ → ℝ≥0∞} {z z' : ℕ → ℕ → ℝ≥0∞} (hd : d ≤ d')
      (hx : ∀ i, x i ≤ x' i) (hy : ∀ j, y j ≤ y' j) (hz : ∀ i j, z i j ≤ z' i j) :
      Ens.Le (Ens.sparseInv d x y z) (Ens.sparseInv d' x' y' z')
  | denseFit {d d' : ℝ≥0∞} {x x' y y' : ℕ → ℝ≥0∞} (w : ℕ → ℕ → XR) (hd : d ≤ d')
      (hx : ∀ i, x i ≤ x' i) (hy : ∀ j, y j ≤ y' j) :
      Ens.Le (Ens.denseFit d x y w) (Ens.denseFit d' x' y' w)
  | denseInv {d d' : ℝ≥0∞} {x x' y y' : ℕ → ℝ≥0∞} (w : ℕ → ℕ → XR) (hd : d ≤ d')
      (hx : ∀ i, x i ≤ x' i) (hy : ∀ j, y j ≤ y' j) :
      Ens.Le (Ens.denseInv d x y w) (Ens.denseInv d' x' y' w)
  | sparkInv {d d' : ℝ≥0∞} {x x' y y' : ℕ → ℝ≥0∞} (w : ℕ → ℕ → XR) (hd : d ≤ d')
      (hx : ∀ i, x i ≤ x' i) (hy : ∀ j, y j ≤ y' j) :
      Ens.Le (Ens.sparkInv d x y w) (Ens.sparkInv d' x' y' w)
  | sparseMultiFit {d d' : ℕ → ℝ≥0∞} {x x' y y' : ℕ → List (ℕ × ℝ≥0∞)} (sx : ∀ i, RowSorted (x i))
      (sx' : ∀ i, RowSorted (x' i)) (sy : ∀ j, RowSorted (y j)) (sy' : ∀ j, RowSorted (y' j))
      (hd : ∀ k, d k ≤ d' k) (hx : ∀ i k, entry (x i) k ≤ entry (x' i) k)
      (hy : ∀ j k, entry (y j) k ≤ entry (y' j) k) :
      Ens.Le (Ens.sparseMultiFit d x y) (Ens.sparseMultiFit d' x' y')
  | sparseMultiInv {d d' : ℕ → ℝ≥0∞} {x x' y y' : ℕ → List (ℕ × ℝ≥0∞)} (sx : ∀ i, RowSorted (x i))
      (sx' : ∀ i, RowSorted (x' i)) (sy : ∀ j, RowSorted (y j)) (sy' : ∀ j, RowSorted (y' j))
      (hd : ∀ k, d k ≤ d' k) (hx : ∀ i k, entry (x i) k ≤ entry (x' i) k)
      (hy : ∀ j k, entry (y j) k ≤ entry (y' j) k) :
      Ens.Le (Ens.sparseMultiInv d x y) (Ens.sparseMultiInv d' x' y')
  | denseMultiFit (L : ℕ) {d d' : ℕ → ℝ≥0∞} {x x' y y' : ℕ → ℕ → ℝ≥0∞} (hd : ∀ k, d k ≤ d' k)
      (hx : ∀ i k, x i k ≤ x' i k) (hy : ∀ j k, y j k ≤ y' j k) :
      Ens.Le (Ens.denseMultiFit L d x y) (Ens.denseMultiFit L d' x' y')
  | denseMultiInv (L : ℕ) {d d' : ℕ → ℝ≥0∞} {x x' y y' : ℕ → ℕ → ℝ≥0∞} (hd : ∀ k, d k ≤ d' k)
      (hx : ∀ i k, x i k ≤ x' i k) (hy : ∀ j k, y j k ≤ y' j k) :
      Ens.Le (Ens.denseMultiInv L d x y) (Ens.denseMultiInv L d' x' y')

namespace Ens

theorem Le.isModel {E E' : Ens} (h : E.Le E') : E.IsModel ∧ E'.IsModel := by
  cases h with
  | sparseFit => exact ⟨.sparseFit .., .sparseFit ..⟩
  | sparseInv => exact ⟨.sparseInv .., .sparseInv ..⟩
  | denseFit => exact ⟨.denseFit .., .denseFit ..⟩
  | denseInv => exact ⟨.denseInv .., .denseInv ..⟩
  | sparkInv => exact ⟨.sparkInv .., .sparkInv ..⟩
  | sparseMultiFit sx sx' sy sy' => exact ⟨.sparseMultiFit _ _ _ sx sy, .sparseMultiFit _ _ _ sx' sy'⟩
  | sparseMultiInv sx sx' sy sy' => exact ⟨.sparseMultiInv _ _ _ sx sy, .sparseMultiInv _ _ _ sx' sy'⟩
  | denseMultiFit => exact ⟨.denseMultiFit .., .denseMultiFit ..⟩
  | denseMultiInv => exact ⟨.denseMultiInv .., .denseMultiInv ..⟩

theorem Le.probLe {E E' : Ens} (h : E.Le E') (i j : ℕ) : ProbLe (E.p i j) (E'.p i j) := by
  cases h with
  | sparseFit hd hx hy hz => exact (C03_single hd (hx i) (hy j) (hz i j) 0).1
  | sparseInv hd hx hy hz => exact (C03_single hd (hx i) (hy j) (hz i j) 0).2.1
  | denseFit w hd hx hy => exact (C03_single hd (hx i) (hy j) (le_refl 0) (w i j)).2.2.1
  | denseInv w hd hx hy => exact (C03_single hd (hx i) (hy j) (le_refl 0) (w i j)).2.2.2
  | sparkInv w hd hx hy => exact (C03_single hd (hx i) (hy j) (le_refl 0) (w i j)).2.2.2
  | sparseMultiFit sx sx' sy sy' hd hx hy =>
    exact (C03_multi_sparse (sx i) (sx' i) (sy j) (sy' j) hd (hx i) (hy j)).1
  | sparseMultiInv sx sx' sy sy' hd hx hy =>
    exact (C03_multi_sparse (sx i) (sx' i) (sy j) (sy' j) hd (hx i) (hy j)).2
  | denseMultiFit L hd hx hy => exact (C03_multi_dense hd (hx i) (hy j)).1
  | denseMultiInv L hd hx hy => exact (C03_multi_dense hd (hx i) (hy j)).2

theorem Le.prob_le {E E' : Ens} (h : E.Le E') (e : ℕ × ℕ) : E.prob e ≤ E'.prob e := by
  obtain ⟨p, q, h1, h2, h3⟩ := h.probLe e.1 e.2
  unfold prob
  rw [h1, h2]
  exact h3

end Ens

/-- **C96**, same random numbers.  If the parameters and properties grow, no link is lost: the
sampled links, in the order in which they are found, are a sublist of those of the other ensemble. -/
theorem C96_coupling {E E' : Ens} (h : E.Le E') (n : ℕ) (sl : Bool) (u : ℕ → ℝ) :
    (E.binary_sample_stream n sl u).Sublist (E'.binary_sample_stream n sl u) := by
  have hE := Ens.isModel_coherent h.isModel.1
  have hE' := Ens.isModel_coherent h.isModel.2
  rw [binary_sample_stream_eq, binary_sample_stream_eq, binary_sample_eq, binary_sample_eq]
  refine List.monotone_filter_right _ fun e he => ?_
  rw [hE.p_eq] at he
  rw [hE'.p_eq]
  have he' : u ((order n sl).idxOf (e.1, e.2)) < E.prob e := by simpa using he
  have : u ((order n sl).idxOf (e.1, e.2)) < E'.prob e := lt_of_lt_of_le he' (h.prob_le _)
  simpa using this

/-- **C96**, same random numbers, any number of calls: the samples stay aligned, because a call uses as
many random numbers as there are admissible pairs. -/
theorem C96_runs (c c' : ℕ → Call) (h : ∀ k, (c k).ens.Le (c' k).ens) (hn : ∀ k, (c k).n = (c' k).n)
    (hs : ∀ k, (c k).sl = (c' k).sl) (u : ℕ → ℝ) (m : ℕ) :
    (Call.run c u m).1 = (Call.run c' u m).1 ∧
    List.Forall₂ List.Sublist (Call.run c u m).2 (Call.run c' u m).2 := by
  have hpos : ∀ k, Call.pos c k = Call.pos c' k := fun k => by
    unfold Call.pos
    simp only [hn, hs]
  rw [Call.run_eq, Call.run_eq]
  refine ⟨hpos m, ?_⟩
  rw [List.forall₂_map_left_iff, List.forall₂_map_right_iff, List.forall₂_same]
  intro k _
  rw [hpos, hn, hs]
  exact C96_coupling (h k) _ _ _

private theorem mean_mono_of_le {E E' : Ens} (h : E.Le E') (n : ℕ) (sl : Bool)
    (F : Finset (ℕ × ℕ) → ℝ) (hF : ∀ G G', G ⊆ G' → G' ⊆ Law.pairs n sl → F G ≤ F G') :
    Law.mean (Law.pairs n sl) E.prob F ≤ Law.mean (Law.pairs n sl) E'.prob F := by
  have hE := Ens.isModel_coherent h.isModel.1
  have hE' := Ens.isModel_coherent h.isModel.2
  obtain ⟨Ω, _, P, _, U, hU⟩ := exists_isUniform ℕ
  obtain ⟨i1, e1⟩ := integral_sample hU hE n sl F
  obtain ⟨i2, e2⟩ := integral_sample hU hE' n sl F
  rw [← e1, ← e2]
  refine integral_mono i1 i2 fun ω => hF _ _ ?_ ?_
  · intro e he
    rw [List.mem_toFinset] at he ⊢
    exact (C96_coupling h n sl _).subset he
  · intro e he
    rw [List.mem_toFinset, binary_sample_stream_eq, mem_binary_sample hE'] at he
    exact he.1

/-- **C96**, quantities that do not decrease when links are added: their ensemble mean grows, in
particular the probability of every set of graphs that is closed under adding links. -/
theorem C96_increasing {E E' : Ens} (h : E.Le E') (q q' : ℕ × ℕ → ℝ) (hq : E.Is q) (hq' : E'.Is q')
    (n : ℕ) (sl : Bool) (F : Finset (ℕ × ℕ) → ℝ)
    (hF : ∀ G G', G ⊆ G' → G' ⊆ Law.pairs n sl → F G ≤ F G') :
    Law.mean (Law.pairs n sl) q F ≤ Law.mean (Law.pairs n sl) q' F := by
  rw [← hq.prob_eq, ← hq'.prob_eq]
  exact mean_mono_of_le h n sl F hF

/-- **C96**, queries: the expected number of edges and the expected degrees grow. -/
theorem C96_expected {E E' : Ens} (h : E.Le E') (n : ℕ) (sl : Bool) :
    (∃ e e' : ℝ, E.exp_edges n sl = fin e ∧ E'.exp_edges n sl = fin e' ∧ e ≤ e') ∧
    ∀ i < n,
      (∃ d d' : ℝ, (E.exp_degrees n sl).exp_d_out i = fin d ∧
        (E'.exp_degrees n sl).exp_d_out i = fin d' ∧ d ≤ d') ∧
      (∃ d d' : ℝ, (E.exp_degrees n sl).exp_d_in i = fin d ∧
        (E'.exp_degrees n sl).exp_d_in i = fin d' ∧ d ≤ d') ∧
      ∃ d d' : ℝ, (E.exp_degrees n sl).exp_d i = fin d ∧
        (E'.exp_degrees n sl).exp_d i = fin d' ∧ d ≤ d' := by
  refine ⟨⟨_, _, C09_models h.isModel.1 n sl, C09_models h.isModel.2 n sl,
    mean_mono_of_le h n sl _ fun G G' hG _ => ?_⟩, fun i hi => ?_⟩
  · exact_mod_cast Finset.card_le_card hG
  · obtain ⟨a1, a2, a3⟩ := C10_models h.isModel.1 n sl i hi
    obtain ⟨b1, b2, b3⟩ := C10_models h.isModel.2 n sl i hi
    refine ⟨⟨_, _, a1, b1, mean_mono_of_le h n sl _ fun G G' hG _ => ?_⟩,
      ⟨_, _, a2, b2, mean_mono_of_le h n sl _ fun G G' hG _ => ?_⟩,
      ⟨_, _, a3, b3, mean_mono_of_le h n sl _ fun G G' hG _ => ?_⟩⟩
    · exact_mod_cast Finset.card_le_card (Finset.filter_subset_filter _ hG)
    · exact_mod_cast Finset.card_le_card (Finset.filter_subset_filter _ hG)
    · refine Nat.cast_le.2 (Finset.card_le_card fun j hj => ?_)
      rw [Finset.mem_filter] at hj ⊢
      exact ⟨hj.1, hj.2.imp (fun h => hG h) (fun h => hG h)⟩

/-- Two such ensembles, and a quantity that grows with the links. -/
example : Ens.Le (Ens.sparseFit 1 (fun _ => 1) (fun _ => 2) (fun _ _ => 1))
      (Ens.sparseFit 2 (fun _ => 1) (fun _ => 3) (fun _ _ => ⊤)) ∧
    ∀ G G' : Finset (ℕ × ℕ), G ⊆ G' → G' ⊆ Law.pairs 3 false →
      (if (0, 1) ∈ G then (1 : ℝ) else 0) ≤ if (0, 1) ∈ G' then 1 else 0 := by
  refine ⟨.sparseFit (by norm_num) (fun _ => le_rfl) (fun _ => by norm_num) (fun _ _ => le_top),
    fun G G' h _ => ?_⟩
  by_cases h1 : (0, 1) ∈ G
  · simp [h1, h h1]
  · rw [if_neg h1]
    split <;> norm_num

end Verif
