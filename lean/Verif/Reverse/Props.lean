import Verif.Ensemble.ModelProps
import Verif.Solver.FitLemmas

/-!
# C100: all links reversed

The ensemble with out- and in-properties exchanged (and the pair properties transposed) is the
ensemble of the reversed graphs.
-/

namespace Verif

open XR Spec Query DiGraphEnsemble
open scoped ENNReal
open MeasureTheory

noncomputable section

namespace Ens

/-- `Reversed E E'`: `E'` has the parameter of `E`, the in-properties of `E` as out-properties, the
out-properties of `E` as in-properties, and the pair property of `(j, i)` for `(i, j)`. The dense and
spark models do not use pair properties. -/
inductive Reversed : Ens → Ens → Prop
  | sparseFit (d x y z) : Reversed (sparseFit d x y z) (sparseFit d y x (fun i j => z j i))
  | sparseInv (d x y z) : Reversed (sparseInv d x y z) (sparseInv d y x (fun i j => z j i))
  | denseFit (d x y w w') : Reversed (denseFit d x y w) (denseFit d y x w')
  | denseInv (d x y w w') : Reversed (denseInv d x y w) (denseInv d y x w')
  | sparkInv (d x y w w') : Reversed (sparkInv d x y w) (sparkInv d y x w')
  | sparseMultiFit (d x y) (hx : ∀ i, RowSorted (x i)) (hy : ∀ i, RowSorted (y i)) :
      Reversed (sparseMultiFit d x y) (sparseMultiFit d y x)
  | sparseMultiInv (d x y) (hx : ∀ i, RowSorted (x i)) (hy : ∀ i, RowSorted (y i)) :
      Reversed (sparseMultiInv d x y) (sparseMultiInv d y x)
  | denseMultiFit (L d x y) : Reversed (denseMultiFit L d x y) (denseMultiFit L d y x)
  | denseMultiInv (L d x y) : Reversed (denseMultiInv L d x y) (denseMultiInv L d y x)

namespace Reversed

variable {E E' : Ens}

theorem isModel (h : Reversed E E') : E.IsModel ∧ E'.IsModel := by
  cases h with
  | sparseFit => exact ⟨.sparseFit _ _ _ _, .sparseFit _ _ _ _⟩
  | sparseInv => exact ⟨.sparseInv _ _ _ _, .sparseInv _ _ _ _⟩
  | denseFit => exact ⟨.denseFit _ _ _ _, .denseFit _ _ _ _⟩
  | denseInv => exact ⟨.denseInv _ _ _ _, .denseInv _ _ _ _⟩
  | sparkInv => exact ⟨.sparkInv _ _ _ _, .sparkInv _ _ _ _⟩
  | sparseMultiFit d x y hx hy => exact ⟨.sparseMultiFit _ _ _ hx hy, .sparseMultiFit _ _ _ hy hx⟩
  | sparseMultiInv d x y hx hy => exact ⟨.sparseMultiInv _ _ _ hx hy, .sparseMultiInv _ _ _ hy hx⟩
  | denseMultiFit => exact ⟨.denseMultiFit _ _ _ _, .denseMultiFit _ _ _ _⟩
  | denseMultiInv => exact ⟨.denseMultiInv _ _ _ _, .denseMultiInv _ _ _ _⟩

theorem left (h : Reversed E E') : E.Coherent := isModel_coherent h.isModel.1

theorem right (h : Reversed E E') : E'.Coherent := isModel_coherent h.isModel.2

end Reversed

end Ens

namespace Reverse

open Ens

variable {E E' : Ens}

private theorem bound2 {A : Type} (r t : List (ℕ × A)) :
    ∃ N, (∀ e ∈ r, e.1 < N) ∧ ∀ e ∈ t, e.1 < N := by
  obtain ⟨a, ha⟩ := Fit.exists_bound r
  obtain ⟨b, hb⟩ := Fit.exists_bound t
  exact ⟨max a b, fun e he => (ha e he).trans_le (le_max_left _ _),
    fun e he => (hb e he).trans_le (le_max_right _ _)⟩

/-- **C100**, link probabilities: `(i, j)` has the probability of `(j, i)`. -/
theorem C100_probability (h : Reversed E E') (i j : ℕ) : E'.p i j = E.p j i := by
  cases h with
  | sparseFit d x y z =>
    rw [(Is.sparseFit d y x _).p_eq, (Is.sparseFit d x y z).p_eq]
    simp only [mul_right_comm d]
  | sparseInv d x y z =>
    rw [(Is.sparseInv d y x _).p_eq, (Is.sparseInv d x y z).p_eq]
    simp only [mul_right_comm d]
  | denseFit d x y w w' =>
    rw [(Is.denseFit d y x w').p_eq, (Is.denseFit d x y w).p_eq]
    simp only [mul_right_comm d]
  | denseInv d x y w w' =>
    rw [(Is.denseInv d y x w').p_eq, (Is.denseInv d x y w).p_eq]
    simp only [mul_right_comm d]
  | sparkInv d x y w w' =>
    rw [(Is.sparkInv d y x w').p_eq, (Is.sparkInv d x y w).p_eq]
    simp only [mul_right_comm d]
  | sparseMultiFit d x y hx hy =>
    obtain ⟨N, h1, h2⟩ := bound2 (x j) (y i)
    refine (sparse_multiFit_p_ij d (hy i) (hx j) h2 h1).trans
      (Eq.trans ?_ (sparse_multiFit_p_ij d (hx j) (hy i) h1 h2).symm)
    unfold noneFit
    simp only [mul_right_comm (d _)]
  | sparseMultiInv d x y hx hy =>
    obtain ⟨N, h1, h2⟩ := bound2 (x j) (y i)
    refine (sparse_multiInv_p_ij d (hy i) (hx j) h2 h1).trans
      (Eq.trans ?_ (sparse_multiInv_p_ij d (hx j) (hy i) h1 h2).symm)
    unfold noneInv
    simp only [mul_right_comm (d _)]
  | denseMultiFit L d x y =>
    rw [(Is.denseMultiFit L d y x).p_eq, (Is.denseMultiFit L d x y).p_eq]
    simp only [mul_right_comm (d _)]
  | denseMultiInv L d x y =>
    rw [(Is.denseMultiInv L d y x).p_eq, (Is.denseMultiInv L d x y).p_eq]
    simp only [mul_right_comm (d _)]

private theorem prob_swap (h : Reversed E E') (e : ℕ × ℕ) : E'.prob e = E.prob e.swap :=
  congrArg XR.toReal (C100_probability h e.1 e.2)

private theorem swap_mem (n : ℕ) (b : Bool) (e : ℕ × ℕ) :
    e.swap ∈ Law.pairs n b ↔ e ∈ Law.pairs n b := by
  obtain ⟨i, j⟩ := e
  simp only [Prod.swap, Law.mem_pairs]
  constructor <;> rintro ⟨h1, h2, h3⟩ <;> exact ⟨h2, h1, h3.imp Ne.symm id⟩

/-- The reversed graph. -/
def rev (G : Finset (ℕ × ℕ)) : Finset (ℕ × ℕ) := G.image Prod.swap

@[simp] theorem mem_rev {G : Finset (ℕ × ℕ)} {e : ℕ × ℕ} : e ∈ rev G ↔ e.swap ∈ G := by
  unfold rev
  rw [Finset.mem_image]
  constructor
  · rintro ⟨a, ha, rfl⟩
    simpa using ha
  · intro h
    exact ⟨e.swap, h, Prod.swap_swap e⟩

private theorem prod_swap (n : ℕ) (b : Bool) (f : ℕ × ℕ → ℝ) :
    ∏ e ∈ Law.pairs n b, f e.swap = ∏ e ∈ Law.pairs n b, f e :=
  Finset.prod_nbij Prod.swap (fun e he => (swap_mem n b e).2 he)
    (fun _ _ _ _ h => Prod.swap_injective h)
    (fun e he => ⟨e.swap, (swap_mem n b e).2 he, Prod.swap_swap e⟩) (fun _ _ => rfl)

private theorem rev_rev (G : Finset (ℕ × ℕ)) : rev (rev G) = G := by
  ext e
  simp

private theorem rev_subset {n : ℕ} {b : Bool} {G : Finset (ℕ × ℕ)} (h : G ⊆ Law.pairs n b) :
    rev G ⊆ Law.pairs n b := fun e he => (swap_mem n b e).1 (h (mem_rev.1 he))

private theorem law_rev (h : Reversed E E') (n : ℕ) (b : Bool) (G : Finset (ℕ × ℕ)) :
    Law.prob (Law.pairs n b) E'.prob (rev G) = Law.prob (Law.pairs n b) E.prob G := by
  unfold Law.prob
  rw [← prod_swap]
  refine Finset.prod_congr rfl fun e _ => ?_
  rw [prob_swap h]
  simp

/-- **C100**, means: a quantity averaged over the reversed ensemble is the quantity of the reversed
graph averaged over the original. -/
theorem C100_mean (h : Reversed E E') (n : ℕ) (b : Bool) (f : Finset (ℕ × ℕ) → ℝ) :
    Law.mean (Law.pairs n b) E'.prob f = Law.mean (Law.pairs n b) E.prob (fun G => f (rev G)) := by
  unfold Law.mean
  refine Finset.sum_nbij' rev rev ?_ ?_ (fun G _ => rev_rev G) (fun G _ => rev_rev G) ?_
  · intro G hG
    exact Finset.mem_powerset.2 (rev_subset (Finset.mem_powerset.1 hG))
  · intro G hG
    exact Finset.mem_powerset.2 (rev_subset (Finset.mem_powerset.1 hG))
  · intro G _
    dsimp only
    rw [← law_rev h n b (rev G), rev_rev]

private theorem card_rev (G : Finset (ℕ × ℕ)) : (rev G).card = G.card :=
  Finset.card_image_of_injective _ Prod.swap_injective

private theorem out_rev (G : Finset (ℕ × ℕ)) (i : ℕ) :
    Law.outDegree (rev G) i = Law.inDegree G i := by
  unfold Law.outDegree Law.inDegree
  rw [← card_rev (G.filter fun e => e.2 = i)]
  congr 1
  ext e
  simp

private theorem in_rev (G : Finset (ℕ × ℕ)) (i : ℕ) :
    Law.inDegree (rev G) i = Law.outDegree G i := by
  rw [← out_rev (rev G), rev_rev]

private theorem deg_rev (n : ℕ) (G : Finset (ℕ × ℕ)) (i : ℕ) :
    Law.degree n (rev G) i = Law.degree n G i := by
  unfold Law.degree
  congr 1
  refine Finset.filter_congr fun j _ => ?_
  simp [or_comm]

/-- **C100**, queries: same expected number of edges, out- and in-degrees exchanged, same expected
degrees, and the reversed graph has the likelihood of the graph. -/
theorem C100_queries (h : Reversed E E') (n : ℕ) (b : Bool) :
    E'.exp_edges n b = E.exp_edges n b ∧
    (∀ i < n, (E'.exp_degrees n b).exp_d_out i = (E.exp_degrees n b).exp_d_in i ∧
      (E'.exp_degrees n b).exp_d_in i = (E.exp_degrees n b).exp_d_out i ∧
      (E'.exp_degrees n b).exp_d i = (E.exp_degrees n b).exp_d i) ∧
    ∀ G, E'.likelihood n (linkOf (rev G)) b = E.likelihood n (linkOf G) b := by
  refine ⟨?_, fun i hi => ?_, fun G => ?_⟩
  · rw [C09_expected_num_edges h.left, C09_expected_num_edges h.right, C100_mean h]
    simp only [card_rev]
  · obtain ⟨h1, h2, h3⟩ := C10_expected_degrees h.left n b i hi
    obtain ⟨h1', h2', h3'⟩ := C10_expected_degrees h.right n b i hi
    rw [h1, h2, h3, h1', h2', h3', C100_mean h, C100_mean h, C100_mean h]
    simp only [out_rev, in_rev, deg_rev]
    exact ⟨trivial, trivial, trivial⟩
  · rw [(C12_log_likelihood h.left n b G).1, (C12_log_likelihood h.right n b (rev G)).1, law_rev h]

/-- **C100**, law of the samples: whatever generators are used, the reversed ensemble returns the
reversed graph with the probability with which the original returns the graph. -/
theorem C100_sampling (h : Reversed E E') (n : ℕ) (b : Bool)
    {Ω Ω' : Type} [MeasurableSpace Ω] [MeasurableSpace Ω'] (P : Measure Ω) (P' : Measure Ω')
    (U : ℕ → Ω → ℝ) (U' : ℕ → Ω' → ℝ) (hU : IsUniform P U) (hU' : IsUniform P' U')
    (G : Finset (ℕ × ℕ)) (hG : G ⊆ Law.pairs n b) :
    P' {ω | (E'.binary_sample_stream n b (fun k => U' k ω)).toFinset = rev G}
      = P {ω | (E.binary_sample_stream n b (fun k => U k ω)).toFinset = G} := by
  rw [(C14_sample_law h.right n b P' U' hU' (rev G) (rev_subset hG)).1,
    (C14_sample_law h.left n b P U hU G hG).1, law_rev h]

private theorem order_swap (n : ℕ) (b : Bool) : (order n b).Perm ((order n b).map Prod.swap) := by
  rw [List.perm_ext_iff_of_nodup (nodup_order n b) ((nodup_order n b).map Prod.swap_injective)]
  intro e
  rw [mem_order, List.mem_map]
  constructor
  · intro he
    exact ⟨e.swap, mem_order.2 ((swap_mem n b e).2 he), Prod.swap_swap e⟩
  · rintro ⟨a, ha, rfl⟩
    exact (swap_mem n b a).2 (mem_order.1 ha)

/-- **C100**, samples: with the number drawn for `(j, i)` used for `(i, j)` the reversed ensemble
returns the reversed links. -/
theorem C100_sample (h : Reversed E E') (n : ℕ) (b : Bool) (u : ℕ → ℕ → ℝ) :
    (E'.binary_sample n b (fun i j => u j i)).Perm ((E.binary_sample n b u).map Prod.swap) := by
  rw [binary_sample_eq, binary_sample_eq]
  refine ((order_swap n b).filter _).trans (List.Perm.of_eq ?_)
  rw [List.filter_map]
  congr 1
  refine List.filter_congr (fun e _ => ?_)
  simp only [Function.comp, Prod.fst_swap, Prod.snd_swap, C100_probability h]

/-- **C100**, weighted samples with exactly equal total strengths: the reversed ensemble with the two
strengths exchanged returns the reversed links with the same weights, and refuses the same strengths.
(If the totals differ, see `C100_weights_violated`.) -/
theorem C100_weights_partial (h : Reversed E E') (n : ℕ) (b : Bool) (so si : ℕ → ℝ)
    (hs : ∑ i ∈ Finset.range n, si i = ∑ i ∈ Finset.range n, so i) (u e : ℕ → ℕ → ℝ) :
    (E'.cremb_sample n si so b (fun i j => u j i) (fun i j => e j i) = .error .strengthsDiffer ∧
      E.cremb_sample n so si b u e = .error .strengthsDiffer) ∨
    ∃ r r', E'.cremb_sample n si so b (fun i j => u j i) (fun i j => e j i) = .ok r' ∧
      E.cremb_sample n so si b u e = .ok r ∧ r'.Perm (r.map (fun x => (x.1.swap, x.2))) := by
  rw [cremb_sample_eq, cremb_sample_eq, hs]
  by_cases hc : |1 - (∑ i ∈ Finset.range n, so i) / ∑ i ∈ Finset.range n, so i| < 1e-6
  · rw [if_pos hc, if_pos hc]
    right
    refine ⟨_, _, rfl, rfl, ?_⟩
    refine ((C100_sample h n b u).map _).trans (List.Perm.of_eq ?_)
    rw [List.map_map, List.map_map]
    refine List.map_congr_left (fun l _ => ?_)
    simp only [Function.comp, Prod.fst_swap, Prod.snd_swap, C100_probability h, mul_comm (si _)]
  · rw [if_neg hc, if_neg hc]
    exact .inl ⟨rfl, rfl⟩

/-- The test of the strengths compares the difference with the total out-strength: strengths can be
refused in one direction and accepted in the other. -/
theorem C100_weights_violated : ∃ (E E' : Ens) (so si : ℕ → ℝ), Reversed E E' ∧
    (∀ i, 0 ≤ so i ∧ 0 ≤ si i) ∧
    (∀ u e, ∃ r, E.cremb_sample 1 so si true u e = .ok r) ∧
    ∀ u e, E'.cremb_sample 1 si so true u e = .error .strengthsDiffer := by
  refine ⟨_, _, fun _ => 1000001, fun _ => 1000000, .denseFit 1 1 1 0 0, fun _ => by norm_num,
    fun u e => ?_, fun u e => ?_⟩
  · rw [cremb_sample_eq, if_pos (by norm_num)]
    exact ⟨_, rfl⟩
  · rw [cremb_sample_eq, if_neg (by norm_num)]

/-- The opposite direction. -/
def Dir.rev : Dir → Dir
  | .out => .inn
  | .inn => .out
  | d => d

private theorem weight_rev (h : Reversed E E') (n : ℕ) (b : Bool) (d : Dir) (i j : ℕ) :
    linkProb n b E'.prob (Dir.rev d) i j = linkProb n b E.prob d i j := by
  unfold linkProb
  rw [C100_mean h]
  congr 1
  funext G
  refine if_congr ?_ rfl rfl
  cases d <;> simp [Dir.rev, Linked, or_comm]

/-- **C100**, neighbour averages (constant pair properties): the average over the successors in one
ensemble is the average over the predecessors in the other. -/
theorem C100_neighbours {θ : E.δ} {θ' : E'.δ} (h : Reversed (at_ E θ) (at_ E' θ')) (jUndef n : ℕ)
    (hd : DyadConst E) (hd' : DyadConst E') (x : ℕ → ℝ) (ndir : Dir) (hdir : ndir.Known) (b : Bool) :
    ∃ v v', (expected_av_nn_property jUndef E n n (fun i => fin (x i)) ndir none false
        (newly θ b)).1 = .ok v ∧
      (expected_av_nn_property jUndef E' n n (fun i => fin (x i)) (Dir.rev ndir) none false
        (newly θ' b)).1 = .ok v' ∧ ∀ i < n, v' i = v i := by
  have hk : (Dir.rev ndir).Known := by cases ndir <;> exact hdir
  obtain ⟨v, h1, h2⟩ := C17_weighted_mean jUndef n θ h.left hd x ndir hdir none false (newly θ b)
    rfl (Or.inl (newly_degFresh E n θ b))
  obtain ⟨v', h1', h2'⟩ := C17_weighted_mean jUndef n θ' h.right hd' x (Dir.rev ndir) hk none false
    (newly θ' b) rfl (Or.inl (newly_degFresh E' n θ' b))
  refine ⟨v, v', h1, h1', fun i hi => ?_⟩
  rw [h2 i hi, h2' i hi]
  have e : ∀ j ∈ Finset.range n, linkProb n b (at_ E' θ').prob (Dir.rev ndir) i j
      = linkProb n b (at_ E θ).prob ndir i j :=
    fun j _ => weight_rev h n b ndir i j
  simp only [Option.getD_none, newly, Query.init]
  rw [Finset.sum_congr rfl e, Finset.sum_congr rfl (fun j hj => by rw [e j hj])]

/-- Two vertices, out-properties 1 and 2, in-properties 3 and 4. -/
example : Reversed
    (denseFit 1 (fun i => if i = 0 then 1 else 2) (fun i => if i = 0 then 3 else 4) 0)
    (denseFit 1 (fun i => if i = 0 then 3 else 4) (fun i => if i = 0 then 1 else 2) 0) :=
  .denseFit _ _ _ _ _

end Reverse

end

end Verif
