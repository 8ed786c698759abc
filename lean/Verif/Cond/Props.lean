import Verif.Cond.SampleLemmas
import Mathlib.Tactic.NormNum

/-!
# C39, C40, C42: sampling from the conditional model

`mk n M d x y groups adj s` is the fitted object with finite properties `x`, `y`, parameter `d`
(possibly infinite) and coarse matrix `adj`; `Stores M adj A` says that `adj` is a csr matrix with
the links `A`; `pr d x y` are the link probabilities of the unconditioned scale-invariant ensemble
(`pr_eq : pr d x y e = invProb (d * x e.1 * y e.2)`); `Law.merge`, `Law.coarseProb`,
`Law.condProb` (`Verif/Coarse.lean`) define the conditional law.
-/

namespace Verif.Cond

open scoped ENNReal NNReal
open XR Spec MeasureTheory

section
variable {n M : ℕ} {d : ℝ≥0∞} {x y : ℕ → ℝ≥0} {groups : ℕ → ℕ} {adj : Mat} {s : Bool}
  {A : Finset (ℕ × ℕ)}

/-! ## Examples used below -/

/-- A csr matrix with two groups and the single link `0 → 1`, of weight `3`. -/
noncomputable def exAdj : Mat := ⟨fun a => if a = 0 then 0 else 1, [1], [3]⟩

theorem exAdj_stores : Stores 2 exAdj {(0, 1)} := by
  refine ⟨fun a b => ?_, fun a b h => ?_, fun a ha => ?_⟩
  · rcases a with _ | a
    · simp [exAdj, Mat.row]
    · simp [exAdj, Mat.row]
  · simp at h; omega
  · rcases a with _ | a
    · simp [exAdj, Mat.row]
    · simp [exAdj, Mat.row]

/-- Four vertices in two groups `{0, 1}`, `{2, 3}`. -/
def exGroups (i : ℕ) : ℕ := if i < 2 then 0 else 1

theorem exFeasible : Feasible 4 false (pr 1 (fun _ => 1) (fun _ => 1)) exGroups {(0, 1)} := by
  intro k hk
  refine ⟨(0, 2), by decide, ?_, pr_pos.2 (by simp)⟩
  rw [Finset.mem_singleton.1 hk]; decide

/-! ## C39 -/

/-- Whatever the random numbers, sampling succeeds and merging the sampled vertices by group
gives exactly the coarse graph. -/
theorem C39_binary (hA : Stores M adj A) (hF : Feasible n s (pr d x y) groups A)
    (so si : Option (ℕ → ℝ)) (u e : ℕ → ℕ → ℝ) (hu : ∀ i j, 0 ≤ u i j ∧ u i j < 1) :
    ∃ rows, sample (mk n M d x y groups adj s) .none so si u e = .ok rows ∧
      (rows.map Prod.fst).Nodup ∧
      (∀ r ∈ rows, r.1 ∈ Law.pairs n s ∧ r.2 = 1) ∧
      Law.merge groups (rows.map Prod.fst).toFinset = A := by
  refine ⟨(pickedAll (mk n M d x y groups adj s) (pr d x y) u).map (fun e => (e, 1)), ?_, ?_, ?_,
    ?_⟩
  · show (binary_sample (mk n M d x y groups adj s) (ofENN d) u >>= _) = _
    rw [binary_sample_eq hA hF hu]
    show Except.ok _ = _
    rw [List.map_map]; rfl
  · rw [List.map_map]
    simpa [Function.comp_def] using nodup_pickedAll hA
  · intro r hr
    obtain ⟨e, he, rfl⟩ := List.mem_map.1 hr
    exact ⟨pickedAll_pairs hA he, rfl⟩
  · rw [List.map_map]
    have : (Prod.fst ∘ fun e : ℕ × ℕ => (e, (1 : XR))) = id := rfl
    rw [this, List.map_id]
    exact merge_pickedAll hA (pr_mem d x y) hF hu

/-- The condition on the coarse graph holds as soon as the unconditioned ensemble produces it with
positive probability. -/
theorem C39_feasible (h : Law.coarseProb (Law.pairs n s) (pr d x y) groups A ≠ 0) :
    Feasible n s (pr d x y) groups A := feasible_of_coarseProb (pr_mem d x y) h

example : Stores 2 exAdj {(0, 1)} ∧
    Feasible 4 false (pr 1 (fun _ => 1) (fun _ => 1)) exGroups {(0, 1)} ∧
    ∃ u : ℕ → ℕ → ℝ, ∀ i j, 0 ≤ u i j ∧ u i j < 1 :=
  ⟨exAdj_stores, exFeasible, fun _ _ => 1 / 2, fun _ _ => by norm_num⟩

/-- The weighted samplers pick the same links from the same uniform numbers: aggregate weights. -/
theorem wagg_eq (hA : Stores M adj A) (hF : Feasible n s (pr d x y) groups A)
    {s_out s_in : ℕ → ℝ} (ho : ∀ i < n, 0 < x i → 0 < s_out i) (hi : ∀ i < n, 0 < y i → 0 < s_in i)
    {u : ℕ → ℕ → ℝ} (hu : ∀ i j, 0 ≤ u i j ∧ u i j < 1) :
    wagg_sample (mk n M d x y groups adj s) (ofENN d) s_out s_in u
      = .ok (((List.range M).flatMap (fun a =>
          ((adj.row a).zip (adj.vals a)).map (fun bw => (a, bw)))).flatMap (fun k =>
            (picked (pr d x y) (fun e => u e.1 e.2) false
              (blockList (mk n M d x y groups adj s) k.1 k.2.1)).map (fun e =>
                (e, fin (s_out e.1 * s_in e.2
                  / ((picked (pr d x y) (fun e => u e.1 e.2) false
                      (blockList (mk n M d x y groups adj s) k.1 k.2.1)).map
                      (fun e => s_out e.1 * s_in e.2)).sum * k.2.2))))) := by
  unfold wagg_sample
  have h1 : (List.range (mk n M d x y groups adj s).M).foldlM (fun rows a =>
      (((mk n M d x y groups adj s).adj.row a).zip
        ((mk n M d x y groups adj s).adj.vals a)).foldlM (fun rows bw =>
        pAgg (mk n M d x y groups adj s) (ofENN d) a bw.1 >>= fun pnorm =>
        blockLoop (mk n M d x y groups adj s) (ofENN d) u
          (fun i j _ => .ok (fin (s_out i * s_in j))) a bw.1
          ⟨rows, false, pnorm⟩ >>= fun st =>
            renorm rows.length (fin bw.2) st.rows) rows) []
      = ((List.range M).flatMap (fun a =>
          ((adj.row a).zip (adj.vals a)).map (fun bw => (a, bw)))).foldlM (fun rows k =>
        pAgg (mk n M d x y groups adj s) (ofENN d) k.1 k.2.1 >>= fun pnorm =>
        blockLoop (mk n M d x y groups adj s) (ofENN d) u
          (fun i j _ => .ok (fin (s_out i * s_in j))) k.1 k.2.1
          ⟨rows, false, pnorm⟩ >>= fun st =>
            renorm rows.length (fin k.2.2) st.rows) [] := by
    rw [foldlM_flatMap]
    congr 1
    funext rows a
    rw [List.foldlM_map]
    rfl
  rw [h1, foldlM_append_ok _ (fun k =>
            (picked (pr d x y) (fun e => u e.1 e.2) false
              (blockList (mk n M d x y groups adj s) k.1 k.2.1)).map (fun e =>
                (e, fin (s_out e.1 * s_in e.2
                  / ((picked (pr d x y) (fun e => u e.1 e.2) false
                      (blockList (mk n M d x y groups adj s) k.1 k.2.1)).map
                      (fun e => s_out e.1 * s_in e.2)).sum * k.2.2))))]
  · rw [List.nil_append]
  · rintro ⟨a, b, w⟩ hk rows
    simp only [List.mem_flatMap, List.mem_map, List.mem_range] at hk
    obtain ⟨a', ha', bw, hbw, hkk⟩ := hk
    obtain ⟨rfl, rfl⟩ := Prod.mk.inj hkk
    have hkA : (a', b) ∈ A := (hA.mem _ _).2 ⟨ha', (List.of_mem_zip hbw).1⟩
    obtain ⟨r, hr0, hr, hp, hl⟩ := block_run (n := n) (M := M) (groups := groups) (adj := adj)
      (s := s) (val := fun i j _ => .ok (fin (s_out i * s_in j)))
      (v := fun e => fin (s_out e.1 * s_in e.2)) (fun _ _ => rfl) hu (hF _ hkA)
    obtain ⟨hit', r', h⟩ := hl rows
    dsimp only at h hp ⊢
    rw [hp]
    show (blockLoop _ _ _ _ _ _ ⟨rows, false, fin r⟩ >>= _) = _
    rw [h]
    show renorm _ _ _ = _
    set L := picked (pr d x y) (fun e => u e.1 e.2) false
      (blockList (mk n M d x y groups adj s) a' b) with hLdef
    unfold renorm
    rw [List.drop_left, List.take_left]
    have hsum : (L.map (fun e => (e, fin (s_out e.1 * s_in e.2)))).foldl
        (fun s r => s + r.2) (0 : XR) = fin ((L.map (fun e => s_out e.1 * s_in e.2)).sum) := by
      have : ∀ (L : List (ℕ × ℕ)) (c : ℝ), (L.map (fun e => (e, fin (s_out e.1 * s_in e.2)))).foldl
          (fun s r => s + r.2) (fin c)
          = fin (c + (L.map (fun e => s_out e.1 * s_in e.2)).sum) := by
        intro L
        induction L with
        | nil => simp
        | cons e L ih => intro c; simp [ih, add_assoc]
      have h2 := this L 0
      rw [zero_add] at h2
      exact h2
    have hspec := picked_spec (pr_mem d x y) (fun e : ℕ × ℕ => hu e.1 e.2) false
      (blockList (mk n M d x y groups adj s) a' b)
    have hne : L ≠ [] := hspec.2 rfl (by
      have hr1 : r ≤ 1 := by
        rw [hr]; linarith [(noneOf_mem (pr_mem d x y)
          (blockList (mk n M d x y groups adj s) a' b)).1]
      have hle := (noneOf_mem (pr_mem d x y) (blockList (mk n M d x y groups adj s) a' b)).2
      refine lt_of_le_of_ne hle (fun hc => hr0 ?_)
      rw [hr]; dsimp only; rw [hc]; ring)
    have hpos : ∀ e ∈ L, 0 < s_out e.1 * s_in e.2 := by
      intro e he
      obtain ⟨_, hxe, hye⟩ := pr_pos.1 (hspec.1 e he)
      have hm := (mem_bl (k := (a', b)) (x := x) (y := y) (d := d) (adj := adj) (M := M)).1
        ((picked_sublist _ _ _ _).subset he)
      have hm2 := Law.mem_pairs.1 (show (e.1, e.2) ∈ _ from hm.1)
      exact mul_pos (ho _ hm2.1 hxe) (hi _ hm2.2.1 hye)
    have hS : (L.map (fun e => s_out e.1 * s_in e.2)).sum ≠ 0 := by
      refine (List.sum_pos _ ?_ ?_).ne'
      · intro v hv
        obtain ⟨e, he, rfl⟩ := List.mem_map.1 hv
        exact hpos e he
      · simpa using hne
    dsimp only
    rw [hsum]
    have hmap : ∀ (L' : List (ℕ × ℕ)) (S : ℝ), S ≠ 0 →
        (L'.map (fun e => (e, fin (s_out e.1 * s_in e.2)))).mapM
          (fun r => divZ r.2 (fin S) >>= fun frac => (.ok (r.1, frac * fin w) :
            Except Err ((ℕ × ℕ) × XR)))
        = .ok (L'.map (fun e => (e, fin (s_out e.1 * s_in e.2 / S * w)))) := by
      intro L' S hS'
      induction L' with
      | nil => rfl
      | cons e L' ih =>
        rw [List.map_cons, List.mapM_cons, ih, divZ_fin hS']
        rfl
    rw [hmap L _ hS]
    rfl

/-- Same for the aggregate weighting scheme. -/
theorem C39_wagg (hA : Stores M adj A) (hlen : ∀ a < M, (adj.vals a).length = (adj.row a).length)
    (hF : Feasible n s (pr d x y) groups A)
    {s_out s_in : ℕ → ℝ} (ho : ∀ i < n, 0 < x i → 0 < s_out i) (hi : ∀ i < n, 0 < y i → 0 < s_in i)
    (u e : ℕ → ℕ → ℝ) (hu : ∀ i j, 0 ≤ u i j ∧ u i j < 1) :
    ∃ rows, sample (mk n M d x y groups adj s) .wagg (some s_out) (some s_in) u e = .ok rows ∧
      (rows.map Prod.fst).Nodup ∧ (∀ r ∈ rows, r.1 ∈ Law.pairs n s) ∧
      Law.merge groups (rows.map Prod.fst).toFinset = A := by
  have h := wagg_eq hA hF ho hi hu
  refine ⟨_, h, ?_⟩
  have hfst : ∀ (l : List (ℕ × ℕ × ℝ)) (v : ℕ × ℕ × ℝ → ℕ × ℕ → XR), (l.flatMap (fun k =>
      (picked (pr d x y) (fun e => u e.1 e.2) false
        (blockList (mk n M d x y groups adj s) k.1 k.2.1)).map (fun e => (e, v k e)))).map Prod.fst
      = (l.map (fun k => (k.1, k.2.1))).flatMap (fun k =>
        picked (pr d x y) (fun e => u e.1 e.2) false
        (blockList (mk n M d x y groups adj s) k.1 k.2)) := by
    intro l v
    rw [List.map_flatMap, List.flatMap_map]
    congr 1
    funext k
    rw [List.map_map]
    exact List.map_id _
  have hl : ((List.range M).flatMap (fun a =>
      ((adj.row a).zip (adj.vals a)).map (fun bw => (a, bw)))).map (fun k => (k.1, k.2.1))
      = coarseList M adj := by
    unfold coarseList
    rw [List.map_flatMap]
    refine List.flatMap_congr (fun a ha => ?_)
    rw [List.map_map]
    have h1 : (adj.row a).map (fun b => (a, b))
        = (((adj.row a).zip (adj.vals a)).map Prod.fst).map (fun b => (a, b)) := by
      rw [List.map_fst_zip (by rw [hlen a (by simpa using ha)])]
    rw [h1, List.map_map]
    rfl
  have hall := hfst ((List.range M).flatMap (fun a =>
      ((adj.row a).zip (adj.vals a)).map (fun bw => (a, bw))))
      (fun k e => fin (s_out e.1 * s_in e.2
                  / ((picked (pr d x y) (fun e => u e.1 e.2) false
                      (blockList (mk n M d x y groups adj s) k.1 k.2.1)).map
                      (fun e => s_out e.1 * s_in e.2)).sum * k.2.2))
  rw [hl] at hall
  have hall' : _ = pickedAll (mk n M d x y groups adj s) (pr d x y) u := hall
  rw [hall']
  refine ⟨nodup_pickedAll hA, ?_, merge_pickedAll hA (pr_mem d x y) hF hu⟩
  intro r hr
  refine pickedAll_pairs (M := M) (d := d) (x := x) (y := y) (adj := adj) (p := pr d x y) (u := u)
    (groups := groups) hA ?_
  rw [← hall']
  exact List.mem_map_of_mem hr

/-! ## C40 -/

/-- The sampled graph is `G` with the conditional probability of `G` given the coarse graph. -/
theorem C40_sample_law (hA : Stores M adj A) (hg : ∀ i < n, groups i < M)
    (hc : Law.coarseProb (Law.pairs n s) (pr d x y) groups A ≠ 0)
    (so si : Option (ℕ → ℝ)) (e : ℕ → ℕ → ℝ)
    {Ω : Type} [MeasurableSpace Ω] (P : Measure Ω) (U : ℕ × ℕ → Ω → ℝ) (hU : IsUniform P U)
    (G : Finset (ℕ × ℕ)) (hG : G ⊆ Law.pairs n s) :
    P {ω | ∃ rows, sample (mk n M d x y groups adj s) .none so si (fun i j => U (i, j) ω) e
          = .ok rows ∧ (rows.map Prod.fst).toFinset = G}
      = ENNReal.ofReal (Law.condProb (Law.pairs n s) (pr d x y) groups A G) := by
  rw [← picked_law (d := d) (x := x) (y := y) hA hg (pr_mem d x y) hc P U hU G hG]
  refine measure_congr ?_
  filter_upwards [hU.ae_mem] with ω hω
  have h : sample (mk n M d x y groups adj s) .none so si (fun i j => U (i, j) ω) e
      = .ok ((pickedAll (mk n M d x y groups adj s) (pr d x y) (fun i j => U (i, j) ω)).map
        (fun e => (e, 1))) := by
    show (binary_sample (mk n M d x y groups adj s) (ofENN d) _ >>= _) = _
    rw [binary_sample_eq hA (feasible_of_coarseProb (pr_mem d x y) hc) (fun i j => hω (i, j))]
    show Except.ok _ = _
    rw [List.map_map]; rfl
  have hid : ∀ l : List (ℕ × ℕ), (l.map (fun e => (e, (1 : XR)))).map Prod.fst = l := by
    intro l; rw [List.map_map]; exact List.map_id _
  refine propext ?_
  show (∃ rows, sample (mk n M d x y groups adj s) .none so si (fun i j => U (i, j) ω) e
          = .ok rows ∧ (rows.map Prod.fst).toFinset = G) ↔ _
  rw [h]
  constructor
  · rintro ⟨rows, h1, h2⟩
    injection h1 with h1
    subst h1
    rw [hid] at h2
    exact h2
  · intro h2
    exact ⟨_, rfl, by rw [hid]; exact h2⟩

/-- The conditional probabilities of all graphs sum to one. -/
theorem C40_normalised (hc : Law.coarseProb (Law.pairs n s) (pr d x y) groups A ≠ 0) :
    ∑ G ∈ (Law.pairs n s).powerset, Law.condProb (Law.pairs n s) (pr d x y) groups A G = 1 := by
  have := Law.condMean_one hc
  simpa [Law.condMean] using this

/-- The coarse graph of the example has positive probability. -/
theorem exCoarse : Law.coarseProb (Law.pairs 4 false) (pr 1 (fun _ => 1) (fun _ => 1)) exGroups
    {(0, 1)} ≠ 0 := by
  rw [Law.coarseProb_eq (T := Finset.range 2 ×ˢ Finset.range 2) _ (by decide) (by decide)]
  refine Finset.prod_ne_zero_iff.2 (fun k _ => ?_)
  unfold Law.linkFactor
  rw [noneOf_block]
  have hne : (1 : ℝ≥0∞) * blockSum 4 false exGroups (fun _ => 1) (fun _ => 1) k ≠ ⊤ :=
    ENNReal.mul_ne_top ENNReal.one_ne_top ENNReal.coe_ne_top
  split
  · next hk =>
    rw [sub_sub_cancel]
    refine (invProb_pos ?_).ne'
    rw [Finset.mem_singleton.1 hk, one_mul]
    simp only [blockSum, mul_one, Finset.sum_const, nsmul_eq_mul]
    have : (Law.block (Law.pairs 4 false) exGroups (0, 1)).card = 4 := by decide
    rw [this]; norm_num
  · rw [one_sub_invProb hne]
    exact (Real.exp_pos _).ne'

example : Stores 2 exAdj {(0, 1)} ∧ (∀ i < 4, exGroups i < 2) ∧
    Law.coarseProb (Law.pairs 4 false) (pr 1 (fun _ => 1) (fun _ => 1)) exGroups {(0, 1)} ≠ 0 ∧
    ({(0, 2), (1, 3)} : Finset (ℕ × ℕ)) ⊆ Law.pairs 4 false ∧
    ∃ (Ω : Type) (_ : MeasurableSpace Ω) (P : Measure Ω) (_ : IsProbabilityMeasure P)
      (U : ℕ × ℕ → Ω → ℝ), IsUniform P U :=
  ⟨exAdj_stores, by decide, exCoarse, by decide, exists_isUniform _⟩

/-- At `param = 0` (the limit of sparse ensembles, accepted by the constructor and returned by
`fit`) sampling raises `ZeroDivisionError` instead. -/
theorem C40_zero_param_violated (u e : ℕ → ℕ → ℝ) :
    sample (mk 4 2 0 (fun _ => 1) (fun _ => 1) exGroups exAdj false) .none none none u e
      = .error .zeroDivision := by
  have h : pAgg (mk 4 2 0 (fun _ => 1) (fun _ => 1) exGroups exAdj false) (ofENN 0) 0 1
      = .ok (fin 0) := by
    rw [pAgg_eq 0 1 (groupSum_pos (i := 0) (groups := exGroups) (by norm_num) (by norm_num))
      (groupSum_pos (i := 2) (groups := exGroups) (by norm_num) (by norm_num)), noneOf_block]
    simp [invProb_zero]
  have hr : (mk 4 2 0 (fun _ => 1) (fun _ => 1) exGroups exAdj false).adj.row 0 = [1] := by
    simp [mk, exAdj, Mat.row]
  have hM : (mk 4 2 0 (fun _ => 1) (fun _ => 1) exGroups exAdj false).M = 2 := rfl
  have hp : Sparse.ScaleInvariantModel.p_ij (ofENN 0) (fin 1) (fin 1) 1 = fin 0 := by
    have := p_ij_eq 0 (fun _ => 1) (fun _ => 1) (0, 2)
    rw [pr_eq] at this
    simpa [invProb_zero] using this
  have hb : blockLoop (mk 4 2 0 (fun _ => 1) (fun _ => 1) exGroups exAdj false) (ofENN 0) u
      (fun _ _ _ => .ok ()) 0 1 ⟨[], false, fin 0⟩ = .error .zeroDivision := by
    rw [blockLoop_list]
    have : blockList (mk 4 2 0 (fun _ => 1) (fun _ => 1) exGroups exAdj false) 0 1
        = [(0, 2), (0, 3), (1, 2), (1, 3)] := by
      simp only [blockList, Obj.members, mk]; decide
    rw [this, List.foldlM_cons]
    have hs : pairStep (mk 4 2 0 (fun _ => 1) (fun _ => 1) exGroups exAdj false) (ofENN 0) u
        (fun _ _ _ => .ok ()) ⟨[], false, fin 0⟩ 0 2 = .error .zeroDivision := by
      unfold pairStep
      rw [if_pos (by simp [admissible])]
      simp only [Bool.false_eq_true, if_false, divZ_zero]
      rfl
    rw [hs]
    rfl
  show (binary_sample _ _ u >>= _) = _
  unfold binary_sample
  rw [hM]
  have hl : List.range 2 = [0, 1] := rfl
  rw [hl, List.foldlM_cons, hr, List.foldlM_cons, h]
  show (((blockLoop _ _ _ _ _ _ _ >>= _) >>= _) >>= _) >>= _ = _
  rw [hb]
  rfl

/-! ## C42 -/

/-- Total weight of the links from group `a` to group `b`. -/
noncomputable def weightBetween (groups : ℕ → ℕ) (rows : List ((ℕ × ℕ) × XR)) (a b : ℕ) : ℝ :=
  (rows.map (fun r => if groups r.1.1 = a ∧ groups r.1.2 = b then r.2.toReal else 0)).sum

theorem sum_flatMap_aux {α : Type} (l : List α) (g : α → List ℝ) :
    (l.flatMap g).sum = (l.map (fun a => (g a).sum)).sum := by
  induction l with
  | nil => simp
  | cons a l ih => simp [ih]

theorem sum_map_ite_const (l : List (ℕ × ℕ)) (v : ℕ × ℕ → ℝ) (c : Prop) [Decidable c] :
    (l.map (fun e => if c then v e else 0)).sum = if c then (l.map v).sum else 0 := by
  split
  · rfl
  · simp

/-- The weights sampled between two groups sum to the entry of the coarse matrix (zero where
there is no coarse link). -/
theorem C42_wagg (hA : Stores M adj A) (hF : Feasible n s (pr d x y) groups A)
    {s_out s_in : ℕ → ℝ} (ho : ∀ i < n, 0 < x i → 0 < s_out i) (hi : ∀ i < n, 0 < y i → 0 < s_in i)
    (u e : ℕ → ℕ → ℝ) (hu : ∀ i j, 0 ≤ u i j ∧ u i j < 1) :
    ∃ rows, sample (mk n M d x y groups adj s) .wagg (some s_out) (some s_in) u e = .ok rows ∧
      (∀ r ∈ rows, ∃ w : ℝ, r.2 = fin w) ∧
      ∀ a < M, ∀ b, weightBetween groups rows a b = adj.at a b := by
  have h := wagg_eq hA hF ho hi hu
  refine ⟨_, h, ?_, ?_⟩
  · intro r hr
    obtain ⟨k, _, hr⟩ := List.mem_flatMap.1 hr
    obtain ⟨e, _, rfl⟩ := List.mem_map.1 hr
    exact ⟨_, rfl⟩
  intro a ha b
  unfold weightBetween
  rw [List.map_flatMap, sum_flatMap_aux]
  have hk : ∀ k ∈ (List.range M).flatMap (fun a =>
      ((adj.row a).zip (adj.vals a)).map (fun bw => (a, bw))),
      (((picked (pr d x y) (fun e => u e.1 e.2) false
          (blockList (mk n M d x y groups adj s) k.1 k.2.1)).map (fun e =>
            (e, fin (s_out e.1 * s_in e.2
              / ((picked (pr d x y) (fun e => u e.1 e.2) false
                  (blockList (mk n M d x y groups adj s) k.1 k.2.1)).map
                  (fun e => s_out e.1 * s_in e.2)).sum * k.2.2)))).map
        (fun r => if groups r.1.1 = a ∧ groups r.1.2 = b then r.2.toReal else 0)).sum
      = if k.1 = a ∧ k.2.1 = b then k.2.2 else 0 := by
    rintro ⟨a', b', w⟩ hk
    simp only [List.mem_flatMap, List.mem_map, List.mem_range] at hk
    obtain ⟨a'', ha'', bw, hbw, hkk⟩ := hk
    obtain ⟨rfl, rfl⟩ := Prod.mk.inj hkk
    have hkA : (a'', b') ∈ A := (hA.mem _ _).2 ⟨ha'', (List.of_mem_zip hbw).1⟩
    dsimp only
    set L := picked (pr d x y) (fun e => u e.1 e.2) false
      (blockList (mk n M d x y groups adj s) a'' b') with hLdef
    have hspec := picked_spec (pr_mem d x y) (fun e : ℕ × ℕ => hu e.1 e.2) false
      (blockList (mk n M d x y groups adj s) a'' b')
    have hmem : ∀ e ∈ L, e ∈ Law.pairs n s ∧ key groups e = (a'', b') := fun e he =>
      (mem_bl (k := (a'', b')) (x := x) (y := y) (d := d) (adj := adj) (M := M)).1
        ((picked_sublist _ _ _ _).subset he)
    have hne : L ≠ [] := hspec.2 rfl (by
      rw [noneOf_lt_one (pr_mem d x y)]
      obtain ⟨e, he, hek, hpe⟩ := hF _ hkA
      exact ⟨e, (mem_bl (k := (a'', b'))).2 ⟨he, hek⟩, hpe⟩)
    have hpos : ∀ e ∈ L, 0 < s_out e.1 * s_in e.2 := by
      intro e he
      obtain ⟨_, hxe, hye⟩ := pr_pos.1 (hspec.1 e he)
      have hm2 := Law.mem_pairs.1 (show (e.1, e.2) ∈ _ from (hmem e he).1)
      exact mul_pos (ho _ hm2.1 hxe) (hi _ hm2.2.1 hye)
    have hS : (L.map (fun e => s_out e.1 * s_in e.2)).sum ≠ 0 := by
      refine (List.sum_pos _ ?_ ?_).ne'
      · intro v hv
        obtain ⟨e, he, rfl⟩ := List.mem_map.1 hv
        exact hpos e he
      · simpa using hne
    rw [List.map_map]
    have h1 : ((fun r : (ℕ × ℕ) × XR => if groups r.1.1 = a ∧ groups r.1.2 = b then r.2.toReal
          else 0) ∘ fun e : ℕ × ℕ => (e, fin (s_out e.1 * s_in e.2
              / (L.map (fun e => s_out e.1 * s_in e.2)).sum * w)))
        = fun e => if groups e.1 = a ∧ groups e.2 = b then
            s_out e.1 * s_in e.2 / (L.map (fun e => s_out e.1 * s_in e.2)).sum * w else 0 := rfl
    rw [h1]
    have h2 : L.map (fun e => if groups e.1 = a ∧ groups e.2 = b then
            s_out e.1 * s_in e.2 / (L.map (fun e => s_out e.1 * s_in e.2)).sum * w else 0)
        = L.map (fun e => if a'' = a ∧ b' = b then
            s_out e.1 * s_in e.2 / (L.map (fun e => s_out e.1 * s_in e.2)).sum * w else 0) := by
      refine List.map_congr_left (fun e he => ?_)
      have := (hmem e he).2
      obtain ⟨e1, e2⟩ := Prod.mk.inj this
      rw [e1, e2]
    rw [h2, sum_map_ite_const]
    split
    · generalize hSd : (L.map (fun e => s_out e.1 * s_in e.2)).sum = S at hS ⊢
      have h3 : L.map (fun e => s_out e.1 * s_in e.2 / S * w)
          = L.map (fun e => (s_out e.1 * s_in e.2) * (w / S)) :=
        List.map_congr_left (fun e _ => by ring)
      rw [h3, List.sum_map_mul_right, hSd]
      field_simp
    · rfl
  rw [List.map_congr_left hk, List.map_flatMap, sum_flatMap_aux]
  have h4 : ∀ a' ∈ List.range M, ((((adj.row a').zip (adj.vals a')).map (fun bw => (a', bw))).map
      (fun k => if k.1 = a ∧ k.2.1 = b then k.2.2 else 0)).sum
      = if a' = a then adj.at a b else 0 := by
    intro a' _
    rw [List.map_map]
    unfold Mat.at
    by_cases h5 : a' = a
    · subst h5
      simp only [Function.comp_def, true_and, if_true]
    · simp [Function.comp_def, h5]
  rw [List.map_congr_left h4]
  have h7 : ∀ (m : ℕ) (f : ℕ → ℝ), ((List.range m).map f).sum = ∑ i ∈ Finset.range m, f i := by
    intro m f
    induction m with
    | zero => simp
    | succ m ih =>
      rw [List.range_succ, List.map_append, List.sum_append, ih, Finset.sum_range_succ]; simp
  rw [h7]
  simp [ha]

/-- With the default strengths (the properties themselves) no condition is left. -/
theorem C42_default (hA : Stores M adj A) (hF : Feasible n s (pr d x y) groups A)
    (u e : ℕ → ℕ → ℝ) (hu : ∀ i j, 0 ≤ u i j ∧ u i j < 1) :
    ∃ rows, sample (mk n M d x y groups adj s) .wagg none none u e = .ok rows ∧
      (∀ r ∈ rows, ∃ w : ℝ, r.2 = fin w) ∧
      ∀ a < M, ∀ b, weightBetween groups rows a b = adj.at a b :=
  C42_wagg hA hF (s_out := fun i => x i) (s_in := fun i => y i)
    (fun i _ h => by exact_mod_cast h) (fun i _ h => by exact_mod_cast h) u e hu

example : Stores 2 exAdj {(0, 1)} ∧ exAdj.at 0 1 = 3 ∧
    Feasible 4 false (pr 1 (fun _ => 1) (fun _ => 1)) exGroups {(0, 1)} :=
  ⟨exAdj_stores, by simp [Mat.at, Mat.row, Mat.vals, exAdj], exFeasible⟩

end

end Verif.Cond
