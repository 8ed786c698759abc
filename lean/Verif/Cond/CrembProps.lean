import Verif.Cond.LikeProps
import Mathlib.Analysis.SpecialFunctions.Integrals.Basic

/-! # C39, C58: weighted sampling of the conditional model with the CReMB scheme -/

namespace Verif.Cond

open scoped ENNReal NNReal
open XR Spec MeasureTheory ProbabilityTheory

section
variable {n M : ℕ} {d : ℝ≥0∞} {x y : ℕ → ℝ≥0} {groups : ℕ → ℕ} {adj : Mat} {s : Bool}
  {A : Finset (ℕ × ℕ)}

/-- Weight given to the link `e`. -/
noncomputable def crembWeight (n : ℕ) (d : ℝ≥0∞) (x y : ℕ → ℝ≥0) (groups : ℕ → ℕ) (s : Bool)
    (A : Finset (ℕ × ℕ)) (s_out s_in : ℕ → ℝ) (ex : ℕ → ℕ → ℝ) (e : ℕ × ℕ) : ℝ :=
  s_out e.1 * s_in e.2 / ((∑ i ∈ Finset.range n, s_out i) * cq n d x y groups s A e.1 e.2)
    * ex e.1 e.2

theorem cremb_eq (hA : Stores M adj A) (hF : Feasible n s (pr d x y) groups A)
    {s_out s_in : ℕ → ℝ} (h0 : ∑ i ∈ Finset.range n, s_out i ≠ 0)
    (htol : |1 - (∑ i ∈ Finset.range n, s_in i) / ∑ i ∈ Finset.range n, s_out i| < 1e-6)
    {u : ℕ → ℕ → ℝ} (hu : ∀ i j, 0 ≤ u i j ∧ u i j < 1) (ex : ℕ → ℕ → ℝ) :
    cremb_sample (mk n M d x y groups adj s) (ofENN d) s_out s_in u ex
      = .ok ((pickedAll (mk n M d x y groups adj s) (pr d x y) u).map
          (fun e => (e, fin (crembWeight n d x y groups s A s_out s_in ex e)))) := by
  unfold cremb_sample
  have hn : (mk n M d x y groups adj s).n = n := rfl
  dsimp only
  rw [hn, npSum_eq, npSum_eq, divZ_fin h0]
  show (if |1 - _| < _ then _ else _) = _
  rw [toReal_fin, if_pos htol]
  set S := ∑ i ∈ Finset.range n, s_out i with hS
  have h1 : (List.range (mk n M d x y groups adj s).M).foldlM (fun rows a =>
      ((mk n M d x y groups adj s).adj.row a).foldlM (fun rows b =>
        pAgg (mk n M d x y groups adj s) (ofENN d) a b >>= fun p_ab =>
          blockLoop (mk n M d x y groups adj s) (ofENN d) u (fun i j p =>
            divZ p p_ab >>= fun q =>
              divZ (fin (s_out i * s_in j)) (fin S * q) >>= fun scale =>
                .ok (scale * fin (ex i j))) a b ⟨rows, false, p_ab⟩ >>= fun s =>
            .ok s.rows) rows) []
      = (coarseList M adj).foldlM (fun rows k =>
        pAgg (mk n M d x y groups adj s) (ofENN d) k.1 k.2 >>= fun p_ab =>
          blockLoop (mk n M d x y groups adj s) (ofENN d) u (fun i j p =>
            divZ p p_ab >>= fun q =>
              divZ (fin (s_out i * s_in j)) (fin S * q) >>= fun scale =>
                .ok (scale * fin (ex i j))) k.1 k.2 ⟨rows, false, p_ab⟩ >>= fun s =>
            .ok s.rows) [] := by
    unfold coarseList
    rw [foldlM_flatMap]
    congr 1
    funext rows a
    rw [List.foldlM_map]
    rfl
  rw [h1, foldlM_append_ok _ (fun k => (picked (pr d x y) (fun e => u e.1 e.2) false
      (blockList (mk n M d x y groups adj s) k.1 k.2)).map
        (fun e => (e, fin (crembWeight n d x y groups s A s_out s_in ex e))))]
  · rw [List.nil_append]
    unfold pickedAll
    rw [List.map_flatMap]
    rfl
  · rintro ⟨a, b⟩ hk rows
    rw [mem_coarseList hA] at hk
    obtain ⟨r, hr0, hr, hp, _⟩ := block_run (n := n) (M := M) (groups := groups) (adj := adj)
      (s := s) (val := fun _ _ _ => .ok ()) (v := fun _ => ()) (d := d) (x := x) (y := y)
      (fun _ _ => rfl) hu (hF _ hk)
    obtain ⟨r2, _, hr2, _, hl⟩ := block_run (n := n) (M := M) (groups := groups) (adj := adj)
      (s := s) (d := d) (x := x) (y := y)
      (val := fun i j p => divZ p (fin r) >>= fun q =>
              divZ (fin (s_out i * s_in j)) (fin S * q) >>= fun scale =>
                .ok (scale * fin (ex i j)))
      (v := fun e => fin (s_out e.1 * s_in e.2 / (S * (pr d x y e / r)) * ex e.1 e.2))
      (fun e he => by
        rw [divZ_fin hr0]
        show (divZ _ (fin S * fin _) >>= _) = _
        rw [fin_mul_fin, divZ_fin (mul_ne_zero h0 (div_ne_zero he.ne' hr0))]
        rfl) hu (hF _ hk)
    have hrr : r2 = r := hr2.trans hr.symm
    subst hrr
    obtain ⟨hit', r', h⟩ := hl rows
    dsimp only at h hp ⊢
    rw [hp]
    show (blockLoop _ _ _ _ _ _ ⟨rows, false, fin r2⟩ >>= _) = _
    rw [h]
    show Except.ok _ = _
    congr 1
    show rows ++ _ = rows ++ _
    congr 1
    refine List.map_congr_left (fun e he => ?_)
    have hke := (mem_bl (k := (a, b)) (x := x) (y := y) (d := d) (adj := adj) (M := M)).1
      ((picked_sublist _ _ _ _).subset he)
    unfold crembWeight cq Law.condLink
    have hke2 : (groups e.1, groups e.2) = (a, b) := hke.2
    have : (groups (e.1, e.2).1, groups (e.1, e.2).2) = (a, b) := hke2
    rw [if_pos (by rw [this]; exact hk), this, hr2]
    have hno := noneOf_bl (n := n) (M := M) (d := d) (x := x) (y := y) (groups := groups)
      (adj := adj) (s := s) (p := pr d x y) (a, b)
    rw [← hno]

/-- The CReMB sampler returns the links of the binary sampler: it aggregates to the coarse graph
as well. -/
theorem C39_cremb (hA : Stores M adj A) (hF : Feasible n s (pr d x y) groups A)
    {s_out s_in : ℕ → ℝ} (h0 : ∑ i ∈ Finset.range n, s_out i ≠ 0)
    (htol : |1 - (∑ i ∈ Finset.range n, s_in i) / ∑ i ∈ Finset.range n, s_out i| < 1e-6)
    (u ex : ℕ → ℕ → ℝ) (hu : ∀ i j, 0 ≤ u i j ∧ u i j < 1) :
    ∃ rows, sample (mk n M d x y groups adj s) .cremb (some s_out) (some s_in) u ex = .ok rows ∧
      (rows.map Prod.fst).Nodup ∧ (∀ r ∈ rows, r.1 ∈ Law.pairs n s) ∧
      Law.merge groups (rows.map Prod.fst).toFinset = A := by
  refine ⟨_, cremb_eq hA hF h0 htol hu ex, ?_⟩
  rw [List.map_map]
  have : (Prod.fst ∘ fun e : ℕ × ℕ => (e, fin (crembWeight n d x y groups s A s_out s_in ex e)))
      = id := rfl
  rw [this, List.map_id]
  refine ⟨nodup_pickedAll hA, fun r hr => ?_, merge_pickedAll hA (pr_mem d x y) hF hu⟩
  obtain ⟨e, he, rfl⟩ := List.mem_map.1 hr
  exact pickedAll_pairs hA he

/-! ## C58 -/

/-- Refusal: strengths with different totals, or out-strengths with total zero
(`ZeroDivisionError`). -/
theorem C58_refused (s_out s_in : ℕ → ℝ) (u ex : ℕ → ℕ → ℝ) :
    (∑ i ∈ Finset.range n, s_out i = 0 →
      sample (mk n M d x y groups adj s) .cremb (some s_out) (some s_in) u ex
        = .error .zeroDivision) ∧
    (∑ i ∈ Finset.range n, s_out i ≠ 0 →
      1e-6 ≤ |1 - (∑ i ∈ Finset.range n, s_in i) / ∑ i ∈ Finset.range n, s_out i| →
      sample (mk n M d x y groups adj s) .cremb (some s_out) (some s_in) u ex
        = .error .strengthsDiffer) := by
  constructor
  · intro h
    show cremb_sample _ _ s_out s_in _ _ = _
    unfold cremb_sample
    dsimp only
    have hn : (mk n M d x y groups adj s).n = n := rfl
    rw [hn, npSum_eq, npSum_eq, h, divZ_zero]
    rfl
  · intro h0 h
    show cremb_sample _ _ s_out s_in _ _ = _
    unfold cremb_sample
    dsimp only
    have hn : (mk n M d x y groups adj s).n = n := rfl
    rw [hn, npSum_eq, npSum_eq, divZ_fin h0]
    show (if |1 - _| < _ then _ else _) = _
    rw [toReal_fin, if_neg (not_lt.2 h)]

/-- The random numbers of the weighted sampler: independent uniform numbers, and variates of mean
one each independent of all the uniform numbers. -/
structure IsNoise {Ω : Type} [MeasurableSpace Ω] (P : Measure Ω) (U X : ℕ × ℕ → Ω → ℝ) : Prop where
  unif : IsUniform P U
  intX : ∀ e, Integrable (X e) P
  meanX : ∀ e, ∫ ω, X e ω ∂P = 1
  indep : ∀ e, IndepFun (fun ω e' => U e' ω) (X e) P

/-- Total weight on the pair `e`. -/
noncomputable def weightOn (rows : List ((ℕ × ℕ) × XR)) (e : ℕ × ℕ) : ℝ :=
  (rows.map (fun r => if r.1 = e then r.2.toReal else 0)).sum

theorem measurable_picked (p : ℕ × ℕ → ℝ) (e : ℕ × ℕ) (L : List (ℕ × ℕ)) (hit : Bool) :
    MeasurableSet {v : ℕ × ℕ → ℝ | e ∈ picked p v hit L} := by
  induction L generalizing hit with
  | nil => simp [picked]
  | cons f L ih =>
    have : {v : ℕ × ℕ → ℝ | e ∈ picked p v hit (f :: L)}
        = ({v | v f < thr p hit f L} ∩ ({v | e = f} ∪ {v | e ∈ picked p v true L}))
          ∪ ({v | v f < thr p hit f L}ᶜ ∩ {v | e ∈ picked p v hit L}) := by
      ext v
      simp only [Set.mem_ofPred_eq, Set.mem_union, Set.mem_inter_iff, Set.mem_compl_iff, picked]
      by_cases h : v f < thr p hit f L
      · simp [h]
      · simp [h]
    rw [this]
    have hm : MeasurableSet {v : ℕ × ℕ → ℝ | v f < thr p hit f L} :=
      measurableSet_lt (measurable_pi_apply f) measurable_const
    exact (hm.inter ((MeasurableSet.const _).union (ih true))).union (hm.compl.inter (ih hit))

theorem measurable_pickedAll (hA : Stores M adj A) (e : ℕ × ℕ) :
    MeasurableSet {v : ℕ × ℕ → ℝ | e ∈ pickedAll (mk n M d x y groups adj s) (pr d x y)
      (fun i j => v (i, j))} := by
  have : {v : ℕ × ℕ → ℝ | e ∈ pickedAll (mk n M d x y groups adj s) (pr d x y)
      (fun i j => v (i, j))}
      = {v | key groups e ∈ A} ∩ {v : ℕ × ℕ → ℝ | e ∈ picked (pr d x y) v false
        (blockList (mk n M d x y groups adj s) (key groups e).1 (key groups e).2)} := by
    ext v
    exact mem_pickedAll hA
  rw [this]
  exact (MeasurableSet.const _).inter (measurable_picked _ _ _ _)

/-- A link is sampled with its conditional probability. -/
theorem prob_pickedAll (hA : Stores M adj A) (hg : ∀ i < n, groups i < M)
    (hc : Law.coarseProb (Law.pairs n s) (pr d x y) groups A ≠ 0)
    {Ω : Type} [MeasurableSpace Ω] (P : Measure Ω) (U : ℕ × ℕ → Ω → ℝ) (hU : IsUniform P U)
    {e : ℕ × ℕ} (he : e ∈ Law.pairs n s) :
    P {ω | e ∈ pickedAll (mk n M d x y groups adj s) (pr d x y) (fun i j => U (i, j) ω)}
      = ENNReal.ofReal (cq n d x y groups s A e.1 e.2) := by
  have hmU : Measurable (fun ω (e' : ℕ × ℕ) => U e' ω) := measurable_pi_lambda _ (fun e => hU.meas e)
  have hmem : ∀ f, MeasurableSet {ω | f ∈ pickedAll (mk n M d x y groups adj s) (pr d x y)
      (fun i j => U (i, j) ω)} := fun f => hmU (measurable_pickedAll hA f)
  have hset : {ω | e ∈ pickedAll (mk n M d x y groups adj s) (pr d x y) (fun i j => U (i, j) ω)}
      = ⋃ G ∈ (Law.pairs n s).powerset.filter (fun G => e ∈ G),
        {ω | (pickedAll (mk n M d x y groups adj s) (pr d x y) (fun i j => U (i, j) ω)).toFinset
          = G} := by
    ext ω
    simp only [Set.mem_ofPred_eq, Set.mem_iUnion, Finset.mem_filter, Finset.mem_powerset, exists_prop,
      exists_eq_right']
    rw [List.mem_toFinset]
    constructor
    · intro h
      refine ⟨fun f hf => ?_, h⟩
      exact pickedAll_pairs hA (List.mem_toFinset.1 hf)
    · exact fun h => h.2
  have hmeas : ∀ G ∈ (Law.pairs n s).powerset.filter (fun G => e ∈ G),
      MeasurableSet {ω | (pickedAll (mk n M d x y groups adj s) (pr d x y)
        (fun i j => U (i, j) ω)).toFinset = G} := by
    intro G hG
    have hGs := Finset.mem_powerset.1 (Finset.mem_filter.1 hG).1
    have : {ω | (pickedAll (mk n M d x y groups adj s) (pr d x y)
        (fun i j => U (i, j) ω)).toFinset = G}
        = ⋂ f ∈ Law.pairs n s, {ω | f ∈ pickedAll (mk n M d x y groups adj s) (pr d x y)
          (fun i j => U (i, j) ω) ↔ f ∈ G} := by
      ext ω
      simp only [Set.mem_ofPred_eq, Set.mem_iInter]
      constructor
      · intro h f _
        rw [← h, List.mem_toFinset]
      · intro h
        ext f
        rw [List.mem_toFinset]
        by_cases hf : f ∈ Law.pairs n s
        · exact h f hf
        · exact ⟨fun h2 => absurd (pickedAll_pairs hA h2) hf, fun h2 => absurd (hGs h2) hf⟩
    rw [this]
    refine Finset.measurableSet_biInter _ (fun f _ => ?_)
    by_cases hf : f ∈ G
    · simpa [hf] using hmem f
    · have : {ω | f ∈ pickedAll (mk n M d x y groups adj s) (pr d x y)
          (fun i j => U (i, j) ω) ↔ f ∈ G}
          = {ω | f ∈ pickedAll (mk n M d x y groups adj s) (pr d x y)
          (fun i j => U (i, j) ω)}ᶜ := by
        ext ω; simp [hf]
      rw [this]
      exact (hmem f).compl
  rw [hset, measure_biUnion_finset _ hmeas]
  · rw [Finset.sum_congr rfl (fun G hG => picked_law hA hg (pr_mem d x y) hc P U hU G
      (Finset.mem_powerset.1 (Finset.mem_filter.1 hG).1))]
    have hnn : ∀ G, 0 ≤ Law.condProb (Law.pairs n s) (pr d x y) groups A G := by
      intro G
      unfold Law.condProb
      split
      · refine div_nonneg (Law.prob_nonneg (fun e _ => pr_mem d x y e) G) ?_
        unfold Law.coarseProb Law.mean
        refine Finset.sum_nonneg (fun H _ => mul_nonneg
          (Law.prob_nonneg (fun e _ => pr_mem d x y e) H) ?_)
        dsimp only
        split <;> norm_num
      · exact le_refl _
    rw [← ENNReal.ofReal_sum_of_nonneg (fun G _ => hnn G)]
    congr 1
    have h := Law.condMean_mem (key_in hg) (coarse_in hA) hc he
    unfold cq
    rw [← h]
    unfold Law.condMean
    rw [Finset.sum_filter]
    refine Finset.sum_congr rfl (fun G _ => ?_)
    dsimp only
    by_cases hG : e ∈ G
    · rw [if_pos hG, if_pos hG, mul_one]
    · rw [if_neg hG, if_neg hG, mul_zero]
  · intro G _ H _ hne
    rw [Function.onFun, Set.disjoint_left]
    intro ω h1 h2
    exact hne (h1.symm.trans h2)

/-- With CReMB weights the mean weight of every pair on a coarse link, with positive properties,
is `s_out i * s_in j / s_tot`; all other pairs have weight zero. -/
theorem C58_mean_weight (hA : Stores M adj A) (hg : ∀ i < n, groups i < M)
    (hc : Law.coarseProb (Law.pairs n s) (pr d x y) groups A ≠ 0)
    {s_out s_in : ℕ → ℝ} (h0 : ∑ i ∈ Finset.range n, s_out i ≠ 0)
    (htol : |1 - (∑ i ∈ Finset.range n, s_in i) / ∑ i ∈ Finset.range n, s_out i| < 1e-6)
    {Ω : Type} [MeasurableSpace Ω] (P : Measure Ω) (U X : ℕ × ℕ → Ω → ℝ) (hN : IsNoise P U X) :
    ∃ rows : Ω → List ((ℕ × ℕ) × XR),
      (∀ᵐ ω ∂P, sample (mk n M d x y groups adj s) .cremb (some s_out) (some s_in)
        (fun i j => U (i, j) ω) (fun i j => X (i, j) ω) = .ok (rows ω)) ∧
      ∀ e ∈ Law.pairs n s, ∫ ω, weightOn (rows ω) e ∂P
        = if (groups e.1, groups e.2) ∈ A ∧ 0 < x e.1 ∧ 0 < y e.2 then
            s_out e.1 * s_in e.2 / ∑ i ∈ Finset.range n, s_out i else 0 := by
  have hF := feasible_of_coarseProb (pr_mem d x y) hc
  refine ⟨fun ω => (pickedAll (mk n M d x y groups adj s) (pr d x y) (fun i j => U (i, j) ω)).map
    (fun e => (e, fin (crembWeight n d x y groups s A s_out s_in (fun i j => X (i, j) ω) e))),
    ?_, ?_⟩
  · filter_upwards [hN.unif.ae_mem] with ω hω
    exact cremb_eq hA hF h0 htol (fun i j => hω (i, j)) _
  · intro e he
    have hP : IsProbabilityMeasure P := by
      refine ⟨?_⟩
      have h2 : (P.map (U e)) Set.univ = 1 := by rw [hN.unif.law e]; exact measure_univ
      rwa [Measure.map_apply (hN.unif.meas e) MeasurableSet.univ, Set.preimage_univ] at h2
    set c := s_out e.1 * s_in e.2
      / ((∑ i ∈ Finset.range n, s_out i) * cq n d x y groups s A e.1 e.2) with hcdef
    set T : Set (ℕ × ℕ → ℝ) := {v | e ∈ pickedAll (mk n M d x y groups adj s) (pr d x y)
      (fun i j => v (i, j))} with hT
    have hTm : MeasurableSet T := measurable_pickedAll hA e
    have hw : ∀ ω, weightOn ((pickedAll (mk n M d x y groups adj s) (pr d x y)
        (fun i j => U (i, j) ω)).map (fun e =>
          (e, fin (crembWeight n d x y groups s A s_out s_in (fun i j => X (i, j) ω) e)))) e
        = c * (T.indicator (fun _ => (1 : ℝ)) (fun e' => U e' ω) * X e ω) := by
      intro ω
      unfold weightOn
      rw [List.map_map]
      have hcount : ∀ L : List (ℕ × ℕ), L.Nodup → (L.map ((fun r : (ℕ × ℕ) × XR =>
          if r.1 = e then r.2.toReal else 0) ∘ fun e =>
          (e, fin (crembWeight n d x y groups s A s_out s_in (fun i j => X (i, j) ω) e)))).sum
          = if e ∈ L then c * X e ω else 0 := by
        intro L hL
        induction L with
        | nil => simp
        | cons f L ih =>
          rw [List.nodup_cons] at hL
          rw [List.map_cons, List.sum_cons, ih hL.2]
          by_cases hf : f = e
          · subst hf
            simp [hL.1, crembWeight, hcdef]
          · have : e ≠ f := fun h => hf h.symm
            simp [hf, this]
      rw [hcount _ (nodup_pickedAll hA)]
      by_cases hm : e ∈ pickedAll (mk n M d x y groups adj s) (pr d x y) (fun i j => U (i, j) ω)
      · have : (fun e' => U e' ω) ∈ T := hm
        rw [if_pos hm, Set.indicator_of_mem this, one_mul]
      · have : (fun e' => U e' ω) ∉ T := hm
        rw [if_neg hm, Set.indicator_of_notMem this, zero_mul, mul_zero]
    simp only [hw]
    rw [integral_const_mul]
    have hmU : Measurable (fun ω (e' : ℕ × ℕ) => U e' ω) :=
      measurable_pi_lambda _ (fun e => hN.unif.meas e)
    have hmI : Measurable (T.indicator (fun _ => (1 : ℝ))) := measurable_const.indicator hTm
    have hind : IndepFun (fun ω => T.indicator (fun _ => (1 : ℝ)) (fun e' => U e' ω)) (X e) P :=
      (hN.indep e).comp (φ := T.indicator (fun _ => (1 : ℝ))) (ψ := id) hmI measurable_id
    rw [hind.integral_fun_mul_eq_mul_integral (hmI.comp hmU).aestronglyMeasurable
      (hN.intX e).aestronglyMeasurable, hN.meanX, mul_one]
    have hI : ∫ ω, T.indicator (fun _ => (1 : ℝ)) (fun e' => U e' ω) ∂P
        = (P {ω | e ∈ pickedAll (mk n M d x y groups adj s) (pr d x y)
          (fun i j => U (i, j) ω)}).toReal := by
      have e1 : (fun ω => T.indicator (fun _ => (1 : ℝ)) (fun e' => U e' ω))
          = Set.indicator {ω | e ∈ pickedAll (mk n M d x y groups adj s) (pr d x y)
          (fun i j => U (i, j) ω)} (fun _ => (1 : ℝ)) := by
        funext ω
        simp only [Set.indicator]
        rfl
      have hm2 : MeasurableSet {ω | e ∈ pickedAll (mk n M d x y groups adj s) (pr d x y)
          (fun i j => U (i, j) ω)} := hmU hTm
      rw [e1, integral_indicator hm2]
      simp only [integral_const, smul_eq_mul, mul_one, measureReal_restrict_apply_univ]
      rfl
    rw [hI, prob_pickedAll hA hg hc P U hN.unif he]
    have hq0 : 0 ≤ cq n d x y groups s A e.1 e.2 := by
      unfold cq Law.condLink
      split
      · rw [noneOf_block, sub_sub_cancel]
        exact div_nonneg (pr_mem _ _ _ _).1 (invProb_nonneg _)
      · exact le_refl _
    rw [ENNReal.toReal_ofReal hq0]
    by_cases hq : cq n d x y groups s A e.1 e.2 = 0
    · rw [hq, mul_zero, if_neg]
      rintro ⟨hk, hx, hy⟩
      obtain ⟨f, hf, hfk, hpf⟩ := hF _ hk
      have hd := (pr_pos.1 hpf).1
      unfold cq Law.condLink at hq
      rw [if_pos hk, noneOf_block, sub_sub_cancel] at hq
      have h1 : pr d x y (e.1, e.2) ≠ 0 := (pr_pos.2 ⟨hd, hx, hy⟩).ne'
      have h2 : invProb (d * blockSum n s groups x y (groups (e.1, e.2).1, groups (e.1, e.2).2))
          ≠ 0 := by
        refine (invProb_pos (mul_ne_zero hd ?_)).ne'
        have : 0 < blockSum n s groups x y (groups e.1, groups e.2) := by
          unfold blockSum
          refine lt_of_lt_of_le (mul_pos hx hy) (Finset.single_le_sum
            (f := fun e : ℕ × ℕ => x e.1 * y e.2) (fun _ _ => zero_le) ?_)
          exact Finset.mem_filter.2 ⟨he, rfl⟩
        exact_mod_cast this.ne'
      exact (div_ne_zero h1 h2) hq
    · rw [if_pos]
      · rw [hcdef]
        field_simp
      · unfold cq Law.condLink at hq
        by_cases hk : (groups (e.1, e.2).1, groups (e.1, e.2).2) ∈ A
        · rw [if_pos hk] at hq
          have hp : pr d x y (e.1, e.2) ≠ 0 := fun h => hq (by rw [h, zero_div])
          have := pr_pos.1 (lt_of_le_of_ne (pr_mem d x y (e.1, e.2)).1 hp.symm)
          exact ⟨hk, this.2⟩
        · rw [if_neg hk] at hq
          exact absurd rfl hq

/-- Such noise exists (weights uniform on `[0, 2)` instead of exponential, mean one as well). -/
theorem exists_isNoise : ∃ (Ω : Type) (_ : MeasurableSpace Ω) (P : Measure Ω)
    (U X : ℕ × ℕ → Ω → ℝ), IsNoise P U X := by
  obtain ⟨Ω, mΩ, P, hP, V, hV⟩ := exists_isUniform (ℕ × ℕ)
  have hint : ∀ k, Integrable (V k) P := by
    intro k
    have hid : Integrable (fun x : ℝ => x) Verif.unif := by
      unfold Verif.unif
      refine Integrable.mono' (g := fun _ => (1 : ℝ)) (integrable_const 1)
        measurable_id.aestronglyMeasurable ?_
      refine (ae_restrict_iff' measurableSet_Ico).2 (Filter.Eventually.of_forall (fun x hx => ?_))
      rw [Real.norm_eq_abs, abs_of_nonneg hx.1]; exact hx.2.le
    rw [← hV.law k] at hid
    exact hid.comp_measurable (hV.meas k)
  have hmean : ∀ e, ∫ ω, V e ω ∂P = 1 / 2 := by
    intro e
    have : ∫ ω, V e ω ∂P = ∫ x, x ∂Verif.unif := by
      rw [← hV.law e]
      exact (integral_map (hV.meas _).aemeasurable
        measurable_id.aestronglyMeasurable).symm
    rw [this]
    unfold Verif.unif
    rw [integral_Ico_eq_integral_Ioc, ← intervalIntegral.integral_of_le zero_le_one, integral_id]
    norm_num
  have hfst : MeasurePreserving (Prod.fst : Ω × Ω → Ω) (P.prod P) P := measurePreserving_fst
  have hsnd : MeasurePreserving (Prod.snd : Ω × Ω → Ω) (P.prod P) P := measurePreserving_snd
  refine ⟨Ω × Ω, inferInstance, P.prod P, fun e ω => V e ω.1, fun e ω => 2 * V e ω.2,
    ⟨fun e => (hV.meas e).comp measurable_fst, ?_, fun e => ?_⟩,
    fun e => ((hsnd.integrable_comp (hint e).aestronglyMeasurable).2 (hint e)).const_mul 2,
    fun e => ?_, fun e => ?_⟩
  · rw [iIndepFun_iff_measure_inter_preimage_eq_mul]
    intro S sets hs
    have h1 := (iIndepFun_iff_measure_inter_preimage_eq_mul.1 hV.indep) S hs
    have h2 : ∀ T : Set Ω, MeasurableSet T → (P.prod P) (Prod.fst ⁻¹' T) = P T :=
      fun T hT => hfst.measure_preimage hT.nullMeasurableSet
    have h3 : (⋂ i ∈ S, (fun ω : Ω × Ω => V i ω.1) ⁻¹' sets i)
        = Prod.fst ⁻¹' (⋂ i ∈ S, V i ⁻¹' sets i) := by
      ext ω; simp
    rw [h3, h2 _ (Finset.measurableSet_biInter _ (fun i hi => hV.meas i (hs i hi))), h1]
    refine Finset.prod_congr rfl (fun i hi => ?_)
    exact (h2 _ (hV.meas i (hs i hi))).symm
  · have : (fun ω : Ω × Ω => V e ω.1) = V e ∘ Prod.fst := rfl
    rw [this, ← Measure.map_map (hV.meas e) measurable_fst, hfst.map_eq, hV.law e]
  · rw [integral_const_mul]
    have : ∫ ω : Ω × Ω, V e ω.2 ∂(P.prod P) = ∫ ω, V e ω ∂P := by
      rw [← hsnd.map_eq]
      rw [integral_map hsnd.measurable.aemeasurable]
      · simp only [hsnd.map_eq]
      · rw [hsnd.map_eq]; exact (hint e).aestronglyMeasurable
    rw [this, hmean]; norm_num
  · exact indepFun_prod (X := fun ω (e' : ℕ × ℕ) => V e' ω) (Y := fun ω => 2 * V e ω)
      (measurable_pi_lambda _ (fun e => hV.meas e)) ((hV.meas e).const_mul 2)

example : Stores 2 exAdj {(0, 1)} ∧ (∀ i < 4, exGroups i < 2) ∧
    Law.coarseProb (Law.pairs 4 false) (pr 1 (fun _ => 1) (fun _ => 1)) exGroups {(0, 1)} ≠ 0 ∧
    (∑ i ∈ Finset.range 4, (fun i : ℕ => (i : ℝ)) i ≠ 0) ∧
    |1 - (∑ i ∈ Finset.range 4, (3 / 2 : ℝ)) / ∑ i ∈ Finset.range 4, (fun i : ℕ => (i : ℝ)) i| < 1e-6 ∧
    (∃ (Ω : Type) (_ : MeasurableSpace Ω) (P : Measure Ω) (U X : ℕ × ℕ → Ω → ℝ), IsNoise P U X) :=
  ⟨exAdj_stores, by decide, exCoarse, by norm_num [Finset.sum_range_succ],
    by norm_num [Finset.sum_range_succ], exists_isNoise⟩

end

end Verif.Cond
