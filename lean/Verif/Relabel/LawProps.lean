import Verif.Relabel.Props
import Verif.Ensemble.SampleProps
import Verif.Ensemble.MethodProps
import Verif.Solver.FitProps

/-!
# C90: likelihood, sampling and fit do not depend on the numbering of the vertices
-/

namespace Verif

open XR DiGraphEnsemble MeasureTheory ProbabilityTheory

namespace Relabel

variable {σ : Equiv.Perm ℕ} {n : ℕ}

theorem link_mem_pairs (hσ : Renum n σ) (b : Bool) (e : ℕ × ℕ) :
    link σ e ∈ Law.pairs n b ↔ e ∈ Law.pairs n b := by
  obtain ⟨i, j⟩ := e
  unfold link
  have h : ∀ i, σ.symm i < n ↔ i < n := fun i => by simpa using (hσ (σ.symm i)).symm
  rw [Law.mem_pairs, Law.mem_pairs, h, h]
  simp

theorem link_injective (σ : Equiv.Perm ℕ) : Function.Injective (link σ) := by
  rintro ⟨a, b⟩ ⟨c, d⟩ h
  simpa [link] using h

theorem link_apply (σ : Equiv.Perm ℕ) (i j : ℕ) : link σ (σ i, σ j) = (i, j) := by simp [link]

theorem mem_image_link (σ : Equiv.Perm ℕ) (G : Finset (ℕ × ℕ)) (i j : ℕ) :
    (i, j) ∈ G.image (link σ) ↔ (σ i, σ j) ∈ G := by
  rw [← link_apply σ i j, (link_injective σ).mem_finset_image]

theorem prob_link (E : Ens) (e : ℕ × ℕ) : (ens σ E).prob (link σ e) = E.prob e := by
  obtain ⟨i, j⟩ := e
  simp [Ens.prob, Ens.p, link]

theorem coherent (E : Ens) (hE : E.Coherent) : (ens σ E).Coherent :=
  fun i j => hE (σ i) (σ j)

theorem prod_pairs (hσ : Renum n σ) (b : Bool) (f g : ℕ × ℕ → ℝ)
    (h : ∀ e, f e = g (link σ e)) :
    ∏ e ∈ Law.pairs n b, f e = ∏ e ∈ Law.pairs n b, g e :=
  Finset.prod_nbij (link σ) (fun e he => (link_mem_pairs hσ b e).2 he)
    (fun _ _ _ _ h => link_injective σ h)
    (fun e he => ⟨(σ e.1, σ e.2), (link_mem_pairs hσ b _).1 (by rw [link_apply]; exact he),
      link_apply σ e.1 e.2⟩) (fun e _ => h e)

/-- The law of the renumbered ensemble is the law of the renumbered graphs. -/
theorem C90_law (hσ : Renum n σ) (E : Ens) (b : Bool) (G : Finset (ℕ × ℕ)) :
    Law.prob (Law.pairs n b) (ens σ E).prob (G.image (link σ))
      = Law.prob (Law.pairs n b) E.prob G := by
  unfold Law.prob
  refine (prod_pairs hσ b _ _ (fun e => ?_)).symm
  rw [prob_link]
  simp only [(link_injective σ).mem_finset_image]

/-! ## Likelihood -/

theorem contains_link (σ : Equiv.Perm ℕ) (l : List (ℕ × ℝ)) (j : ℕ) :
    ((l.map (fun e => (σ.symm e.1, e.2))).map Prod.fst).contains j
      = (l.map Prod.fst).contains (σ j) := by
  rw [Bool.eq_iff_iff, List.contains_iff_mem, List.contains_iff_mem]
  simp only [List.mem_map, Prod.exists, exists_and_right, exists_eq_right]
  constructor
  · rintro ⟨v, a, w, h1, h2⟩
    simp only [Prod.mk.injEq] at h2
    obtain ⟨rfl, rfl⟩ := h2
    exact ⟨w, by simpa using h1⟩
  · rintro ⟨v, h⟩
    exact ⟨v, σ j, v, h, by simp⟩

theorem adjOf_renum (σ : Equiv.Perm ℕ) (B : Method.Backend) (g : Method.Arg) :
    Method.adjOf B (arg σ g)
      = (Method.adjOf B g).map (fun r => (r.1, fun i j => r.2 (σ i) (σ j))) := by
  cases g with
  | other => rfl
  | ndarray s a => rfl
  | graph k G =>
    simp only [Method.adjOf, arg, Except.map, mem_image_link]
  | sparse m =>
    cases B with
    | sparse => simp only [Method.adjOf, arg, Except.map, contains_link]
    | dense =>
      have h : ∀ i j, (⟨m.shape, fun i => (m.row (σ i)).map (fun e => (σ.symm e.1, e.2))⟩ :
          Method.Stored).val i j = m.val (σ i) (σ j) := by
        intro i j
        unfold Method.Stored.val
        rw [List.filter_map, List.map_map]
        congr 1
        have : ((fun e : ℕ × ℝ => e.1 == j) ∘ fun e : ℕ × ℝ => (σ.symm e.1, e.2))
            = fun e => e.1 == σ j := by
          funext e
          simp only [Function.comp, beq_eq_decide, Equiv.symm_apply_eq]
        rw [this]
        rfl
      simp only [Method.adjOf, arg, Except.map, h]

/-- The log-likelihood of the same graph is the same, whatever form the graph is given in. -/
theorem C90_likelihood (hσ : Renum n σ) (B : Method.Backend) (E : Ens) (fitted : Option E.δ)
    (hE : ∀ θ, fitted = some θ → (Query.at_ E θ).Coherent) (b : Bool) (g : Method.Arg)
    (sl : Option Bool) :
    Method.log_likelihood B (ens σ E) n fitted b (arg σ g) sl
      = Method.log_likelihood B E n fitted b g sl := by
  unfold Method.log_likelihood
  cases fitted with
  | none => rfl
  | some θ =>
    dsimp only
    rw [adjOf_renum]
    cases Method.adjOf B g with
    | error e => rfl
    | ok r =>
      obtain ⟨shape, l⟩ := r
      simp only [Except.map]
      split
      · rfl
      · congr 1
        have hc := hE θ rfl
        have h1 := likelihood_eq (coherent (σ := σ) _ hc) n (fun i j => l (σ i) (σ j)) b
        have h2 := likelihood_eq hc n l b
        refine h1.trans (Eq.trans ?_ h2.symm)
        congr 1
        refine (prod_pairs hσ b _ _ (fun e => ?_)).symm
        rw [prob_link]
        simp [link]

/-! ## Sampling -/

/-- Drawing a graph from the renumbered ensemble is drawing from the original one and renumbering,
whatever generators are used. -/
theorem C90_sampling (hσ : Renum n σ) {E : Ens} (hE : E.Coherent) (b : Bool)
    {Ω Ω' : Type} [MeasurableSpace Ω] [MeasurableSpace Ω'] (P : Measure Ω) (P' : Measure Ω')
    (U : ℕ → Ω → ℝ) (U' : ℕ → Ω' → ℝ) (hU : IsUniform P U) (hU' : IsUniform P' U')
    (G : Finset (ℕ × ℕ)) (hG : G ⊆ Law.pairs n b) :
    P' {ω | ((ens σ E).binary_sample_stream n b (fun k => U' k ω)).toFinset = G.image (link σ)}
      = P {ω | (E.binary_sample_stream n b (fun k => U k ω)).toFinset = G} := by
  rw [(C14_sample_law (coherent (σ := σ) E hE) n b P' U' hU' (G.image (link σ)) ?_).1,
    (C14_sample_law hE n b P U hU G hG).1, C90_law hσ]
  intro e he
  obtain ⟨a, ha, rfl⟩ := Finset.mem_image.1 he
  exact (link_mem_pairs hσ b a).2 (hG ha)

theorem order_renum (hσ : Renum n σ) (b : Bool) :
    (order n b).Perm ((order n b).map (link σ)) := by
  rw [List.perm_ext_iff_of_nodup (nodup_order n b)
    ((nodup_order n b).map (link_injective σ))]
  intro e
  rw [mem_order, List.mem_map]
  constructor
  · intro h
    exact ⟨(σ e.1, σ e.2), mem_order.2 ((link_mem_pairs hσ b _).1 (by rw [link_apply]; exact h)),
      link_apply σ e.1 e.2⟩
  · rintro ⟨a, ha, rfl⟩
    exact (link_mem_pairs hσ b a).2 (mem_order.1 ha)

theorem binary_perm (hσ : Renum n σ) (E : Ens) (b : Bool) (u : ℕ → ℕ → ℝ) :
    ((ens σ E).binary_sample n b (fun i j => u (σ i) (σ j))).Perm
      ((E.binary_sample n b u).map (link σ)) := by
  rw [binary_sample_eq, binary_sample_eq]
  refine ((order_renum hσ b).filter _).trans (List.Perm.of_eq ?_)
  rw [List.filter_map]
  congr 1
  refine List.filter_congr (fun e _ => ?_)
  simp [link, Ens.p]

/-- With the same numbers drawn for the same pairs of vertices the two calls of `sample` return the
same links with the same weights, and fail on the same inputs with the same exception. -/
theorem C90_sample (hσ : Renum n σ) (E : Ens) (fitted : Option E.δ) (b : Bool)
    (w : Method.Weights) (sl : Option Bool) (u e : ℕ → ℕ → ℝ) :
    (∃ err, Method.sample (ens σ E) n fitted b (weights σ w) sl (fun i j => u (σ i) (σ j))
        (fun i j => e (σ i) (σ j)) = .error err ∧
      Method.sample E n fitted b w sl u e = .error err) ∨
    ∃ r r', Method.sample (ens σ E) n fitted b (weights σ w) sl (fun i j => u (σ i) (σ j))
        (fun i j => e (σ i) (σ j)) = .ok r' ∧
      Method.sample E n fitted b w sl u e = .ok r ∧
      r'.Perm (r.map (fun x => (link σ x.1, x.2))) := by
  cases fitted with
  | none => exact .inl ⟨.notFitted, rfl, rfl⟩
  | some θ =>
    cases w with
    | other => exact .inl ⟨.badWeights, rfl, rfl⟩
    | none =>
      refine .inr ⟨_, _, rfl, rfl, ?_⟩
      refine ((binary_perm hσ (Query.at_ E θ) b u).map _).trans (List.Perm.of_eq ?_)
      rw [List.map_map, List.map_map]
      rfl
    | cremb so si =>
      have hs : ∀ a : ℕ → ℝ, ∑ i ∈ Finset.range n, a (σ i) = ∑ i ∈ Finset.range n, a i :=
        fun a => Finset.sum_equiv σ (fun i => by simp [hσ i]) (fun _ _ => rfl)
      have h1 := cremb_sample_eq (ens σ (Query.at_ E θ)) n (fun i => so (σ i))
        (fun i => si (σ i)) b (fun i j => u (σ i) (σ j)) (fun i j => e (σ i) (σ j))
      have h2 := cremb_sample_eq (Query.at_ E θ) n so si b u e
      rw [hs, hs] at h1
      have g1 : Method.sample (ens σ E) n (some θ) b (weights σ (.cremb so si)) sl
          (fun i j => u (σ i) (σ j)) (fun i j => e (σ i) (σ j))
          = (match (ens σ (Query.at_ E θ)).cremb_sample n (fun i => so (σ i))
              (fun i => si (σ i)) b (fun i j => u (σ i) (σ j)) (fun i j => e (σ i) (σ j)) with
            | .ok r => Except.ok r
            | .error _ => .error Method.SampleErr.strengthsDiffer) := rfl
      have g2 : Method.sample E n (some θ) b (.cremb so si) sl u e
          = (match (Query.at_ E θ).cremb_sample n so si b u e with
            | .ok r => Except.ok r
            | .error _ => .error Method.SampleErr.strengthsDiffer) := rfl
      rw [g1, g2, h1, h2]
      by_cases hc : |1 - (∑ i ∈ Finset.range n, si i) / ∑ i ∈ Finset.range n, so i| < 1e-6
      · rw [if_pos hc, if_pos hc]
        right
        refine ⟨_, _, rfl, rfl, ?_⟩
        refine ((binary_perm hσ (Query.at_ E θ) b u).map _).trans (List.Perm.of_eq ?_)
        rw [List.map_map, List.map_map]
        refine List.map_congr_left (fun l _ => ?_)
        simp [link, Ens.p]
      · rw [if_neg hc, if_neg hc]
        exact .inl ⟨.strengthsDiffer, rfl, rfl⟩

/-! ## Models and fits -/

/-- The renumbered model is the model the constructor builds from the renumbered properties. -/
theorem C90_models (E : Ens) (h : E.IsModel) : (ens σ E).IsModel := by
  cases h with
  | sparseFit d x y z => exact .sparseFit d (fun i => x (σ i)) (fun i => y (σ i)) (fun i j => z (σ i) (σ j))
  | sparseInv d x y z => exact .sparseInv d (fun i => x (σ i)) (fun i => y (σ i)) (fun i j => z (σ i) (σ j))
  | denseFit d x y w => exact .denseFit d (fun i => x (σ i)) (fun i => y (σ i)) (fun i j => w (σ i) (σ j))
  | denseInv d x y w => exact .denseInv d (fun i => x (σ i)) (fun i => y (σ i)) (fun i j => w (σ i) (σ j))
  | sparkInv d x y w => exact .sparkInv d (fun i => x (σ i)) (fun i => y (σ i)) (fun i j => w (σ i) (σ j))
  | sparseMultiFit d x y hx hy =>
    exact .sparseMultiFit d (fun i => x (σ i)) (fun i => y (σ i)) (fun i => hx _) (fun i => hy _)
  | sparseMultiInv d x y hx hy =>
    exact .sparseMultiInv d (fun i => x (σ i)) (fun i => y (σ i)) (fun i => hx _) (fun i => hy _)
  | denseMultiFit L d x y => exact .denseMultiFit L d (fun i => x (σ i)) (fun i => y (σ i))
  | denseMultiInv L d x y => exact .denseMultiInv L d (fun i => x (σ i)) (fun i => y (σ i))

/-- The same for the models that are fitted. -/
theorem C90_fitters (F : Fit.Fitter) (h : Fit.IsFitter F) : Fit.IsFitter (fitter σ F) := by
  cases h with
  | sparseFit x y z => exact .sparseFit (fun i => x (σ i)) (fun i => y (σ i)) (fun i j => z (σ i) (σ j))
  | sparseInv x y z => exact .sparseInv (fun i => x (σ i)) (fun i => y (σ i)) (fun i j => z (σ i) (σ j))
  | denseFit x y w => exact .denseFit (fun i => x (σ i)) (fun i => y (σ i)) (fun i j => w (σ i) (σ j))
  | denseInv x y w => exact .denseInv (fun i => x (σ i)) (fun i => y (σ i)) (fun i j => w (σ i) (σ j))
  | sparkInv x y w => exact .sparkInv (fun i => x (σ i)) (fun i => y (σ i)) (fun i j => w (σ i) (σ j))
  | sparseMultiFit x y hx hy =>
    exact .sparseMultiFit (fun i => x (σ i)) (fun i => y (σ i)) (fun i => hx _) (fun i => hy _)
  | sparseMultiInv x y hx hy =>
    exact .sparseMultiInv (fun i => x (σ i)) (fun i => y (σ i)) (fun i => hx _) (fun i => hy _)
  | denseMultiFit L x y => exact .denseMultiFit L (fun i => x (σ i)) (fun i => y (σ i))
  | denseMultiInv L x y => exact .denseMultiInv L (fun i => x (σ i)) (fun i => y (σ i))

section

attribute [local instance] addMonoid

theorem f_jac_sum (pj : XR → ℕ → ℕ → XR × XR) (b : Bool) (x : XR) :
    Fit.exp_edges_f_jac pj n b x
      = ∑ i ∈ Finset.range n, ∑ j ∈ Finset.range n, if admissible i j b then pj x i j else 0 := by
  unfold Fit.exp_edges_f_jac
  rw [show ((0, 0) : XR × XR) = id 0 from rfl, foldl_rep (A := XR × XR) id _
    (fun i => ∑ j ∈ Finset.range n, if admissible i j b then pj x i j else 0) n, id, zero_add]
  intro i _ a
  refine foldl_rep (A := XR × XR) id _ _ n (fun j _ a => ?_) a
  by_cases h : admissible i j b = true
  · simp only [h, if_true, id]
    rfl
  · simp only [h, if_false, add_zero, Bool.false_eq_true]

theorem foldl_list_sum {A B : Type} [AddCommMonoid A] (f : B → A) (l : List B) (a : A) :
    l.foldl (fun s e => s + f e) a = a + (l.map f).sum := by
  induction l generalizing a with
  | nil => simp
  | cons e l ih => simp [ih, add_assoc]

theorem f_jac_layer_sum (pj : XR → XR → XR → XR × XR) (l m : List (ℕ × XR)) (b : Bool) (x : XR) :
    Fit.exp_edges_f_jac_layer pj l m b x
      = (l.map (fun a => (m.map (fun c =>
          if admissible a.1 c.1 b then pj x a.2 c.2 else 0)).sum)).sum := by
  unfold Fit.exp_edges_f_jac_layer
  have h : ∀ (a : ℕ × XR) (s : XR × XR), m.foldl (fun s c =>
      if admissible a.1 c.1 b then (s.1 + (pj x a.2 c.2).1, s.2 + (pj x a.2 c.2).2) else s) s
      = s + (m.map (fun c => if admissible a.1 c.1 b then pj x a.2 c.2 else 0)).sum := by
    intro a s
    rw [← foldl_list_sum]
    congr 1
    funext s c
    by_cases h : admissible a.1 c.1 b = true
    · simp only [h, if_true]
      rfl
    · simp only [h, if_false, add_zero, Bool.false_eq_true]
  simp only [h]
  rw [foldl_list_sum]
  exact zero_add _

/-- The function handed to the solver is the same, hence so is the fit. -/
theorem C90_fit (hσ : Renum n σ) (F : Fit.Fitter) (b : Bool) (num_edges : Option ℝ) (x0 : Fit.X0)
    (method : Fit.Method) (o : Fit.Opts) :
    (fitter σ F).func n b = F.func n b ∧
    Fit.fitSingle ((fitter σ F).func n b) num_edges x0 method o
      = Fit.fitSingle (F.func n b) num_edges x0 method o := by
  have h : (fitter σ F).func n b = F.func n b := by
    funext x
    unfold Fit.Fitter.func
    rw [f_jac_sum, f_jac_sum]
    refine Finset.sum_equiv σ (fun i => by simp [hσ i]) (fun i _ => ?_)
    refine Finset.sum_equiv σ (fun j => by simp [hσ j]) (fun j _ => ?_)
    simp [admissible, fitter]
  exact ⟨h, by rw [h]⟩

/-- The function of one label, handed to the solver by the fit per label: it depends neither on
the numbers of the vertices nor on the order in which the column is stored. -/
theorem C90_fit_layer (σ : Equiv.Perm ℕ) (pj : XR → XR → XR → XR × XR)
    (l m l' m' : List (ℕ × XR))
    (hl : l'.Perm (l.map (fun e => (σ.symm e.1, e.2))))
    (hm : m'.Perm (m.map (fun e => (σ.symm e.1, e.2)))) (b : Bool) :
    Fit.exp_edges_f_jac_layer pj l' m' b = Fit.exp_edges_f_jac_layer pj l m b := by
  funext x
  rw [f_jac_layer_sum, f_jac_layer_sum]
  rw [(hl.map _).sum_eq]
  have h : ∀ a : ℕ × XR, (m'.map (fun c =>
      if admissible a.1 c.1 b then pj x a.2 c.2 else 0)).sum
      = ((m.map (fun e => (σ.symm e.1, e.2))).map (fun c =>
      if admissible a.1 c.1 b then pj x a.2 c.2 else 0)).sum := fun a => (hm.map _).sum_eq
  simp only [h, List.map_map]
  refine congrArg List.sum (List.map_congr_left (fun a _ => ?_))
  refine congrArg List.sum (List.map_congr_left (fun c _ => ?_))
  simp [admissible]

/-- The fit of a model with several labels: all labels at once and label by label. -/
theorem C90_fit_multi (hσ : Renum n σ) (F : Fit.Fitter) (pl : XR → XR → XR → XR × XR) (L : ℕ)
    (per_label b : Bool) (num_edges : Option ℝ) (num_edges_label : Option (ℕ → ℝ))
    (l m l' m' : ℕ → List (ℕ × XR))
    (hl : ∀ k, (l' k).Perm ((l k).map (fun e => (σ.symm e.1, e.2))))
    (hm : ∀ k, (m' k).Perm ((m k).map (fun e => (σ.symm e.1, e.2))))
    (x0 : Fit.X0) (method : Fit.Method) (o : Fit.Opts) :
    Fit.fitMulti ⟨L, per_label, num_edges, num_edges_label, (fitter σ F).func n b,
        fun k => Fit.exp_edges_f_jac_layer pl (l' k) (m' k) b⟩ x0 method o
      = Fit.fitMulti ⟨L, per_label, num_edges, num_edges_label, F.func n b,
        fun k => Fit.exp_edges_f_jac_layer pl (l k) (m k) b⟩ x0 method o := by
  rw [(C90_fit hσ F b num_edges x0 method o).1]
  congr 2
  funext k
  exact C90_fit_layer σ pl _ _ _ _ (hl k) (hm k) b

end

/-- The hypotheses are met: two different vertices, fitted, with one link between them. -/
example : Renum 2 (Equiv.swap 0 1) ∧ twoWit.Coherent ∧
    (∀ θ, some (ofENN 1) = some θ → (Query.at_ twoWit θ).Coherent) ∧
    ({(0, 1)} : Finset (ℕ × ℕ)) ⊆ Law.pairs 2 false ∧
    ({(0, 1)} : Finset (ℕ × ℕ)).image (link (Equiv.swap 0 1)) = {(1, 0)} ∧
    ∃ (Ω : Type) (_ : MeasurableSpace Ω) (P : Measure Ω) (_ : IsProbabilityMeasure P)
      (U : ℕ → Ω → ℝ), IsUniform P U := by
  refine ⟨swap_renum, Ens.isModel_coherent twoWit_model, fun θ h => ?_, by decide, by decide,
    exists_isUniform ℕ⟩
  cases h
  exact Ens.isModel_coherent twoWit_model

/-- The columns of a layer in the two orders. -/
example : ([(0, fin 2), (1, fin 1)] : List (ℕ × XR)).Perm
    ([(0, fin 1), (1, fin 2)].map (fun e => ((Equiv.swap 0 1 : Equiv.Perm ℕ).symm e.1, e.2))) := by
  simpa using List.Perm.swap _ _ _

end Relabel

end Verif
