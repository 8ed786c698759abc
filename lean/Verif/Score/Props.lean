import Verif.Score.Lemmas
import Verif.Ensemble.RepeatProps

/-!
# C102: the log-likelihood identifies the ensemble

`Ens.Is E q` (`Verif/Ensemble/ModelProps.lean`): `E` is one of the ensembles of the library and `q`
its formula for the link probabilities.  `E.likelihood n (linkOf G) sl` is `log_likelihood`
(`sparse/models/ensembles.py:491-512`, `models.py:494-511`) on the graph `G`.
-/

namespace Verif

open XR Spec MeasureTheory ProbabilityTheory Filter Topology
open scoped NNReal ENNReal

variable {Ω : Type} [MeasurableSpace Ω]

/-- Sum of the numbers in a list, from left to right as python's `sum`. -/
noncomputable def addUp (l : List XR) : XR := l.foldl (· + ·) 0

/-- `E` gives the graph a positive probability whenever `E'` does: `log_likelihood` of `E` is `-inf`
only where that of `E'` is. -/
def Covers (E E' : Ens) (n : ℕ) (sl : Bool) : Prop :=
  ∀ G ⊆ Law.pairs n sl, E.likelihood n (linkOf G) sl = ninf → E'.likelihood n (linkOf G) sl = ninf

section Helpers

variable {E E' : Ens} {q q' : ℕ × ℕ → ℝ}

private theorem mem01 (hE : E.Is q) (S : Finset (ℕ × ℕ)) : ∀ e ∈ S, 0 ≤ q e ∧ q e ≤ 1 := by
  obtain rfl := hE.prob_eq
  exact fun e _ => hE.coherent.prob_mem e

private theorem like_ninf (hE : E.Is q) (n : ℕ) (sl : Bool) (G : Finset (ℕ × ℕ)) :
    E.likelihood n (linkOf G) sl = ninf ↔ ¬ 0 < Law.prob (Law.pairs n sl) q G := by
  rw [(C12_formula hE n sl G).1, elog]
  split <;> simp [*]

private theorem like_fin (hE : E.Is q) (n : ℕ) (sl : Bool) (G : Finset (ℕ × ℕ))
    (h : 0 < Law.prob (Law.pairs n sl) q G) :
    E.likelihood n (linkOf G) sl = fin (Real.log (Law.prob (Law.pairs n sl) q G)) := by
  rw [(C12_formula hE n sl G).1, elog, if_pos h]

theorem like_toReal (hE : E.Is q) (n : ℕ) (sl : Bool) (G : Finset (ℕ × ℕ)) :
    (E.likelihood n (linkOf G) sl).toReal = Real.log (Law.prob (Law.pairs n sl) q G) := by
  have h0 := Law.prob_nonneg (mem01 hE (Law.pairs n sl)) G
  rw [(C12_formula hE n sl G).1, elog]
  split
  · rfl
  · rename_i h
    rw [le_antisymm (not_lt.1 h) h0, Real.log_zero]
    rfl

private theorem covers_iff (hE : E.Is q) (hE' : E'.Is q') (n : ℕ) (sl : Bool) :
    Covers E' E n sl ↔ ∀ G ⊆ Law.pairs n sl, 0 < Law.prob (Law.pairs n sl) q G →
      0 < Law.prob (Law.pairs n sl) q' G := by
  unfold Covers
  refine forall₂_congr fun G _ => ?_
  rw [like_ninf hE, like_ninf hE', not_imp_not]

private theorem sum_map_sub' {α : Type} (l : List α) (f g : α → ℝ) :
    (l.map fun a => f a - g a).sum = (l.map f).sum - (l.map g).sum := by
  induction l with
  | nil => simp
  | cons b l ih =>
    simp only [List.map_cons, List.sum_cons, ih]
    ring

private theorem foldl_fin (l : List ℝ) (a : ℝ) :
    (l.map fin).foldl (· + ·) (fin a) = fin (a + l.sum) := by
  induction l generalizing a with
  | nil => simp
  | cons b l ih =>
    simp only [List.map_cons, List.foldl_cons, List.sum_cons]
    rw [show fin a + fin b = fin (a + b) from rfl, ih, add_assoc]

private theorem addUp_fin (l : List ℝ) : addUp (l.map fin) = fin l.sum := by
  have := foldl_fin l 0
  rw [zero_add] at this
  exact this

private theorem foldl_ninf (l : List XR) (h : ∀ a ∈ l, a = ninf ∨ ∃ r, a = fin r) :
    l.foldl (· + ·) ninf = ninf := by
  induction l with
  | nil => rfl
  | cons b l ih =>
    have e : ninf + b = ninf := by
      rcases h b (by simp) with rfl | ⟨r, rfl⟩ <;> rfl
    simp only [List.foldl_cons]
    rw [e]
    exact ih fun a ha => h a (by simp [ha])

private theorem addUp_ninf (l : List XR) (h : ∀ a ∈ l, a = ninf ∨ ∃ r, a = fin r)
    (hn : ninf ∈ l) : addUp l = ninf := by
  have key : ∀ (l : List XR) (x : ℝ), (∀ a ∈ l, a = ninf ∨ ∃ r, a = fin r) → ninf ∈ l →
      l.foldl (· + ·) (fin x) = ninf := by
    intro l
    induction l with
    | nil => intro x _ h; simp at h
    | cons b l ih =>
      intro x h hn
      simp only [List.foldl_cons]
      rcases h b (by simp) with rfl | ⟨r, rfl⟩
      · exact foldl_ninf l fun a ha => h a (by simp [ha])
      · refine ih (x + r) (fun a ha => h a (by simp [ha])) ?_
        simpa using hn
  exact key l 0 h hn

/-- A sample drawn with numbers in `[0, 1)` is possible. -/
private theorem prob_sample_pos {c : ℕ → Call} {k : ℕ} (hE : (c k).ens.Is q) {u : ℕ → ℝ}
    (hu : ∀ i, 0 ≤ u i ∧ u i < 1) :
    0 < Law.prob (Law.pairs (c k).n (c k).sl) q ((c k).ens.binary_sample_stream (c k).n (c k).sl
      (fun i => u (Call.pos c k + i))).toFinset := by
  rw [Law.prob_pos_iff (mem01 hE _)]
  intro e he
  rw [Call.mem_sample hE.coherent, hE.prob_eq]
  exact ⟨fun h => (hu _).1.trans_lt h.2,
    fun h => (not_lt.1 fun h1 => h ⟨he, h1⟩).trans_lt (hu _).2⟩

end Helpers

variable {E E' : Ens} {q q' : ℕ × ℕ → ℝ}

/-- **C102**, entropy.  If `E'` makes no graph impossible that `E` makes possible, the mean
`log_likelihood` of `E'` over the graphs of `E` is the cross entropy of the links.  In particular the
mean of the own `log_likelihood` of an ensemble is minus the sum of the entropies of its links. -/
theorem C102_entropy (hE : E.Is q) (hE' : E'.Is q') (n : ℕ) (sl : Bool) (h : Covers E' E n sl) :
    Law.mean (Law.pairs n sl) q (fun G => (E'.likelihood n (linkOf G) sl).toReal)
      = ∑ e ∈ Law.pairs n sl, (q e * Real.log (q' e) + (1 - q e) * Real.log (1 - q' e)) ∧
    Law.mean (Law.pairs n sl) q (fun G => (E.likelihood n (linkOf G) sl).toReal)
      = ∑ e ∈ Law.pairs n sl, (q e * Real.log (q e) + (1 - q e) * Real.log (1 - q e)) := by
  simp only [like_toReal hE, like_toReal hE']
  exact ⟨Law.mean_log (mem01 hE _) ((covers_iff hE hE' n sl).1 h),
    Law.mean_log (mem01 hE _) fun _ _ h => h⟩

/-- **C102**, score.  Over the graphs of an ensemble the mean `log_likelihood` of any other ensemble of
the library is at most its own, and equal only if all link probabilities are the same. -/
theorem C102_score (hE : E.Is q) (hE' : E'.Is q') (n : ℕ) (sl : Bool) (h : Covers E' E n sl) :
    Law.mean (Law.pairs n sl) q (fun G => (E'.likelihood n (linkOf G) sl).toReal)
      ≤ Law.mean (Law.pairs n sl) q (fun G => (E.likelihood n (linkOf G) sl).toReal) ∧
    (Law.mean (Law.pairs n sl) q (fun G => (E'.likelihood n (linkOf G) sl).toReal)
        = Law.mean (Law.pairs n sl) q (fun G => (E.likelihood n (linkOf G) sl).toReal) ↔
      ∀ i < n, ∀ j < n, (i ≠ j ∨ sl = true) → E'.p i j = E.p i j) := by
  simp only [like_toReal hE, like_toReal hE']
  have hg := Law.mean_log_le (mem01 hE (Law.pairs n sl)) (mem01 hE' (Law.pairs n sl))
    ((covers_iff hE hE' n sl).1 h)
  refine ⟨hg.1, hg.2.trans ⟨fun h i hi j hj hij => ?_, fun h e he => ?_⟩⟩
  · rw [hE.p_eq, hE'.p_eq, h (i, j) (Law.mem_pairs.2 ⟨hi, hj, hij⟩)]
  · obtain ⟨hi, hj, hij⟩ := Law.mem_pairs.1 (show (e.1, e.2) ∈ _ from he)
    have := h e.1 hi e.2 hj hij
    rw [hE.p_eq, hE'.p_eq, fin_inj] at this
    exact this.symm

/-- **C102**, samples are possible.  With random numbers in `[0, 1)`, the `log_likelihood` of an
ensemble on each of its own samples is a finite number, never positive. -/
theorem C102_possible (c : ℕ → Call) (k m : ℕ) (hk : k < m) (hE : (c k).ens.Is q) (u : ℕ → ℝ)
    (hu : ∀ i, 0 ≤ u i ∧ u i < 1) :
    ∃ L r, (Call.run c u m).2[k]? = some L ∧
      (c k).ens.likelihood (c k).n (linkOf L.toFinset) (c k).sl = fin r ∧ r ≤ 0 := by
  have hp := prob_sample_pos (c := c) (k := k) hE hu
  refine ⟨_, _, ?_, like_fin hE _ _ _ hp, ?_⟩
  · rw [Call.run_eq, List.getElem?_map, List.getElem?_range hk]
    rfl
  · refine Real.log_nonpos hp.le (Finset.prod_le_one (fun e he => ?_) fun e he => ?_)
    · have := mem01 hE _ e he
      split <;> linarith [this.1, this.2]
    · have := mem01 hE _ e he
      split <;> linarith [this.1, this.2]

/-- **C102**, samples.  With probability one, the `log_likelihood` summed over the samples of an
ensemble ends up larger for that ensemble than for any other ensemble of the library with different
link probabilities. -/
theorem C102_samples (c : Call) (hE : c.ens.Is q) (hE' : E'.Is q')
    (hne : ∃ i < c.n, ∃ j < c.n, (i ≠ j ∨ c.sl = true) ∧ E'.p i j ≠ c.ens.p i j)
    (P : Measure Ω) [IsProbabilityMeasure P] (U : ℕ → Ω → ℝ) (hU : IsUniform P U) :
    ∀ᵐ ω ∂P, ∀ᶠ m : ℕ in atTop,
      ltb (addUp ((Call.run (fun _ => c) (fun k => U k ω) m).2.map fun L =>
          E'.likelihood c.n (linkOf L.toFinset) c.sl))
        (addUp ((Call.run (fun _ => c) (fun k => U k ω) m).2.map fun L =>
          c.ens.likelihood c.n (linkOf L.toFinset) c.sl)) = true := by
  set S := Law.pairs c.n c.sl with hS
  have hpos : ∀ (u : ℕ → ℝ), (∀ i, 0 ≤ u i ∧ u i < 1) → ∀ m,
      ∀ L ∈ (Call.run (fun _ => c) u m).2, L.toFinset ⊆ S ∧ 0 < Law.prob S q L.toFinset := by
    intro u hu m L hL
    rw [Call.run_eq, List.mem_map] at hL
    obtain ⟨k, _, rfl⟩ := hL
    exact ⟨fun e he => ((Call.mem_sample (c := fun _ => c) (k := k) hE.coherent u e).1 he).1,
      prob_sample_pos (c := fun _ => c) (k := k) hE hu⟩
  have hown : ∀ (u : ℕ → ℝ), (∀ i, 0 ≤ u i ∧ u i < 1) → ∀ m,
      addUp ((Call.run (fun _ => c) u m).2.map fun L =>
          c.ens.likelihood c.n (linkOf L.toFinset) c.sl)
        = fin ((Call.run (fun _ => c) u m).2.map fun L => Real.log (Law.prob S q L.toFinset)).sum := by
    intro u hu m
    rw [← addUp_fin, List.map_map]
    congr 1
    exact List.map_congr_left fun L hL => like_fin hE _ _ _ (hpos u hu m L hL).2
  by_cases hcov : ∀ G ⊆ S, 0 < Law.prob S q G → 0 < Law.prob S q' G
  · have hlt : Law.mean S q (fun G => Real.log (Law.prob S q' G) - Real.log (Law.prob S q G)) < 0 := by
      have hg := Law.mean_log_le (mem01 hE S) (mem01 hE' S) hcov
      have hsub := Law.mean_sub S q (fun G => Real.log (Law.prob S q' G))
        (fun G => Real.log (Law.prob S q G))
      rw [hsub, sub_neg]
      refine lt_of_le_of_ne hg.1 fun h => ?_
      obtain ⟨i, hi, j, hj, hij, hp⟩ := hne
      refine hp ?_
      rw [hE.p_eq, hE'.p_eq, hg.2.1 h (i, j) (Law.mem_pairs.2 ⟨hi, hj, hij⟩)]
    have hav := C95_average c q hE P U hU
      (fun G => Real.log (Law.prob S q' G) - Real.log (Law.prob S q G))
    filter_upwards [hav, hU.ae_mem] with ω h hu
    filter_upwards [h.eventually (gt_mem_nhds hlt), eventually_gt_atTop 0] with m hm hm0
    have hm0' : (0 : ℝ) < m := by exact_mod_cast hm0
    have hL : addUp ((Call.run (fun _ => c) (fun k => U k ω) m).2.map fun L =>
          E'.likelihood c.n (linkOf L.toFinset) c.sl)
        = fin ((Call.run (fun _ => c) (fun k => U k ω) m).2.map fun L =>
            Real.log (Law.prob S q' L.toFinset)).sum := by
      rw [← addUp_fin, List.map_map]
      congr 1
      refine List.map_congr_left fun L hL => ?_
      have hp := hpos _ hu m L hL
      exact like_fin hE' _ _ _ (hcov _ hp.1 hp.2)
    rw [hown _ hu, hL]
    have hdiv := (div_lt_iff₀ hm0').1 hm
    rw [zero_mul, sum_map_sub'] at hdiv
    simpa [ltb] using hdiv
  · push Not at hcov
    obtain ⟨G, hGS, hG, hG'⟩ := hcov
    have hmean : Law.mean S q (fun H => if H = G then 1 else 0) = Law.prob S q G := by
      unfold Law.mean
      rw [Finset.sum_eq_single G]
      · simp
      · intro H _ hH
        simp [hH]
      · intro h
        exact absurd (Finset.mem_powerset.2 hGS) h
    have hav := C95_average c q hE P U hU (fun H => if H = G then 1 else 0)
    rw [← hS, hmean] at hav
    filter_upwards [hav, hU.ae_mem] with ω h hu
    filter_upwards [h.eventually (lt_mem_nhds hG)] with m hm
    rw [hown _ hu, addUp_ninf]
    · rfl
    · intro a ha
      obtain ⟨L, _, rfl⟩ := List.mem_map.1 ha
      by_cases hp : 0 < Law.prob S q' L.toFinset
      · exact .inr ⟨_, like_fin hE' _ _ _ hp⟩
      · exact .inl ((like_ninf hE' _ _ _).2 hp)
    · by_contra hcon
      refine hm.ne' ?_
      rw [div_eq_zero_iff]
      refine .inl (List.sum_eq_zero fun a ha => ?_)
      obtain ⟨L, hL, rfl⟩ := List.mem_map.1 ha
      rw [if_neg]
      rintro rfl
      exact hcon (List.mem_map.2 ⟨L, hL, (like_ninf hE' _ _ _).2 (not_lt.2 hG')⟩)

/-- Two ensembles of the library with all links of probability 1/2 and 2/3: they differ, and both make
all graphs possible. -/
example : (Ens.denseFit 1 (fun _ => 1) (fun _ => 1) 1).Is (fun _ => fitProb (1 * 1 * 1)) ∧
    (Ens.denseFit 2 (fun _ => 1) (fun _ => 1) 1).Is (fun _ => fitProb (2 * 1 * 1)) ∧
    Covers (Ens.denseFit 2 (fun _ => 1) (fun _ => 1) 1) (Ens.denseFit 1 (fun _ => 1) (fun _ => 1) 1)
      3 false ∧
    (∃ i < 3, ∃ j < 3, (i ≠ j ∨ false = true) ∧
      (Ens.denseFit 2 (fun _ => 1) (fun _ => 1) 1).p i j
        ≠ (Ens.denseFit 1 (fun _ => 1) (fun _ => 1) 1).p i j) ∧
    ∃ (Ω : Type) (_ : MeasurableSpace Ω) (P : Measure Ω) (_ : IsProbabilityMeasure P)
      (U : ℕ → Ω → ℝ), IsUniform P U := by
  have h1 : (Ens.denseFit 1 (fun _ => 1) (fun _ => 1) 1).Is (fun _ => fitProb (1 * 1 * 1)) :=
    .denseFit _ _ _ _
  have h2 : (Ens.denseFit 2 (fun _ => 1) (fun _ => 1) 1).Is (fun _ => fitProb (2 * 1 * 1)) :=
    .denseFit _ _ _ _
  have e2 : fitProb (2 * 1 * 1) = 2 / 3 := by
    norm_num [fitProb]
  have e1 : fitProb (1 * 1 * 1) = 1 / 2 := by
    norm_num [fitProb]
  refine ⟨h1, h2, (covers_iff h1 h2 3 false).2 fun G _ _ => ?_, ?_, exists_isUniform ℕ⟩
  · rw [Law.prob_pos_iff (mem01 h2 _)]
    intro e _
    simp only [e2]
    norm_num
  · refine ⟨0, by norm_num, 1, by norm_num, .inl (by norm_num), ?_⟩
    rw [h1.p_eq, h2.p_eq, e1, e2]
    norm_num

end Verif
