import Verif.Spark.MethodProps
import Verif.Sampled.MultiProps

/-!
# C80: `log_likelihood`, `confusion_matrix` and `sample` of the multi-layer spark ensembles
-/

namespace Verif

noncomputable section

open XR Spec DiGraphEnsemble MeasureTheory Layer
open scoped ENNReal

namespace Spark

namespace MultiMethod

open Layer.Method (sparseObj Obj Arg Err)
open _root_.Verif.Spark.Method (ConfErr listMax listMin thresholds CountsAt listMax_spec listMin_spec counts_at)
open Graph (coo)
open Sampled (Ref Adj Described RefOk LayerOk Strength Weights boolRows floatRows header_ok
  columns_exists columns_ok coo_bool coo_float cremb_layer_facts columns_cases header_dtype
  header_label real)

/-! ## The models -/

/-- `p_ij` of the multi-layer models. -/
def pfun : Kind → (ℕ → XR) → List (ℕ × XR) → List (ℕ × XR) → XR
  | .fit => Verif.Sparse.MultiFitnessModel.p_ij
  | .inv => Verif.Sparse.MultiInvariantModel.p_ij

/-- Probability of a link with any label. -/
def anyProb (K : Kind) (L : ℕ) (d : ℕ → ℝ≥0∞) (x y : ℕ → List (ℕ × ℝ≥0∞)) (e : ℕ × ℕ) : ℝ :=
  1 - ∏ k ∈ Finset.range L, (1 - K.q (d k * entry (x e.1) k * entry (y e.2) k))

theorem ens_eq (K : Kind) (n L : ℕ) (d : ℕ → ℝ≥0∞) (x y : ℕ → List (ℕ × ℝ≥0∞))
    (dyad : ℕ → ℕ → XR) (s : Bool) :
    ens (sparseObj K n L (some d) x y dyad s) (pfun K) (fun k => ofENN (d k)) = K.sparseEns d x y := by
  cases K <;> rfl

theorem multi_is (K : Kind) (L : ℕ) (d : ℕ → ℝ≥0∞) (x y : ℕ → List (ℕ × ℝ≥0∞))
    (hx : ∀ i, RowSorted (x i)) (hy : ∀ i, RowSorted (y i))
    (hxL : ∀ i, ∀ e ∈ x i, e.1 < L) (hyL : ∀ i, ∀ e ∈ y i, e.1 < L) :
    (K.sparseEns d x y).Is (anyProb K L d x y) := by
  cases K
  · exact .sparseMultiFit L d x y hx hy hxL hyL
  · exact .sparseMultiInv L d x y hx hy hxL hyL

theorem multi_dyadFree (K : Kind) (d : ℕ → ℝ≥0∞) (x y : ℕ → List (ℕ × ℝ≥0∞)) :
    DyadFree (K.sparseEns d x y) := by
  intro i j a b
  cases K <;> exact ⟨rfl, rfl, rfl⟩

/-! ## `log_likelihood` -/

theorem folds_sum {l : List XR} {v : XR} (h : Folds (· + ·) 0 l v) : v = l.sum := by
  have := folds_rep (fun a : XR => a) rfl (fun _ _ => rfl) h (l := l)
    (by simp)
  exact this

theorem foldl_add_sum (f : ℕ → XR) (l : List ℕ) (a : XR) :
    l.foldl (fun acc k => acc + f k) a = a + (l.map f).sum := by
  induction l generalizing a with
  | nil => simp
  | cons k t ih => rw [List.foldl_cons, ih, List.map_cons, List.sum_cons, add_assoc]

/-- **C80**, labelled graphs of the right shape, all cases: the only outcome. -/
theorem C80_multi_computed (K : Kind) (n L p : ℕ) (d : ℕ → ℝ≥0∞) (x y : ℕ → List (ℕ × ℝ≥0∞))
    (hx : ∀ i, RowSorted (x i)) (hy : ∀ i, RowSorted (y i)) (dyad : ℕ → ℕ → XR) (b : Bool)
    (sl : Option Bool) (g : Arg) (hs : g.layerShapes = some (List.replicate L (n, n)))
    (hc : g.Clean n) (r : Except Err XR) :
    let s := sl.getD b
    (s = false → (∃ k < L, ∃ i < n, (i, i) ∈ g.links3 n k ∧
        (entry (x i) k = 0 ∨ entry (y i) k = 0)) →
      (LogLikelihood (sparseObj K n L (some d) x y dyad b) (pfun K) p g sl r ↔ r = .ok ninf)) ∧
    ((s = true ∨ ∀ k < L, ∀ i < n, (i, i) ∈ g.links3 n k →
        entry (x i) k ≠ 0 ∧ entry (y i) k ≠ 0) →
      (LogLikelihood (sparseObj K n L (some d) x y dyad b) (pfun K) p g sl r ↔
        r = .ok (elog (∏ k ∈ Finset.range L, Law.prob (Law.pairs n s)
          (layerProb K d x y k) (g.links3 n k))))) := by
  intro s
  obtain ⟨layers, h1, h2, h3⟩ := Layer.Method.adjOf_tensor hs hc
  let nbrs : ℕ → ℕ → List ℕ := fun k i => (layers[k]?.map (fun x => x.2 i)).getD []
  let o := sparseObj K n L (some d) x y dyad b
  have hadj : (Layer.Method.Sparse.adjOf g >>= fun adj =>
      Layer.Method.Sparse.checkShape n L adj >>= fun _ => .ok adj) = .ok (.tensor layers) := by
    rw [h1]
    show (Layer.Method.Sparse.checkShape n L (.tensor layers) >>= fun _ => _) = _
    rw [Layer.Method.checkShape_tensor h2]
    rfl
  have hrun : LogLikelihood o (pfun K) p g sl r ↔ ∃ v, Folds (· + ·) 0
      (layerTasks o (fun k => ofENN (d k)) nbrs s) v ∧ r = .ok v := by
    show (match (Layer.Method.Sparse.adjOf g >>= fun adj =>
      Layer.Method.Sparse.checkShape n L adj >>= fun _ => .ok adj) with
      | .error e => r = .error e
      | .ok (.tensor layers) => _
      | .ok (.matrix _ nbrs) => _) ↔ _
    rw [hadj]
    exact Iff.rfl
  have hval : ∀ v, Folds (· + ·) 0 (layerTasks o (fun k => ofENN (d k)) nbrs s) v →
      v = Layer.Spark.log_likelihood K.link.logp_ijk K.link.log1mp_ijk n L (fun k => ofENN (d k))
        (fun i => rowX (x i)) (fun i => rowX (y i)) dyad nbrs s := by
    intro v hv
    rw [folds_sum hv]
    unfold Layer.Spark.log_likelihood
    rw [foldl_add_sum, zero_add]
    rfl
  have hiff : ∀ w, Layer.Spark.log_likelihood K.link.logp_ijk K.link.log1mp_ijk n L
      (fun k => ofENN (d k)) (fun i => rowX (x i)) (fun i => rowX (y i)) dyad nbrs s = w →
      (LogLikelihood o (pfun K) p g sl r ↔ r = .ok w) := by
    intro w hw
    rw [hrun]
    constructor
    · rintro ⟨v, hv, rfl⟩
      rw [hval v hv, hw]
    · rintro rfl
      have hf := folds_fold (· + ·) (0 : XR) (layerTasks o (fun k => ofENN (d k)) nbrs s)
      exact ⟨_, hf, by rw [hval _ hf, hw]⟩
  have h := (C61_computed K n L d x y hx hy dyad s nbrs (fun k => g.links3 n k) h3
    (fun k _ e he => (Layer.Method.Arg.mem_links3.1 (show (e.1, e.2) ∈ _ from he)).1)).2
  constructor
  · intro hsf hbad
    exact hiff _ (h.trans (if_pos ⟨hsf, hbad⟩))
  · intro hok
    refine hiff _ (h.trans (if_neg ?_))
    rintro ⟨hsf, k, hk, i, hi, hm, h0⟩
    rcases hok with hst | hok
    · rw [hsf] at hst; cases hst
    · rcases h0 with h0 | h0
      · exact (hok k hk i hi hm).1 h0
      · exact (hok k hk i hi hm).2 h0

/-- **C80**, labelled graphs: the only outcome is the logarithm of the probability of the labelled
graph, with self loops as asked.  What fails: stored zeros, and excluded self links of vertices
without properties (`C80_multi_violated`). -/
theorem C80_multi_partial (K : Kind) (n L p : ℕ) (d : ℕ → ℝ≥0∞) (x y : ℕ → List (ℕ × ℝ≥0∞))
    (hx : ∀ i, RowSorted (x i)) (hy : ∀ i, RowSorted (y i)) (dyad : ℕ → ℕ → XR) (b : Bool)
    (sl : Option Bool) (g : Arg) (hs : g.layerShapes = some (List.replicate L (n, n)))
    (hc : g.Clean n) (hself : sl.getD b = true ∨ ∀ k < L, ∀ i < n, (i, i) ∈ g.links3 n k →
        entry (x i) k ≠ 0 ∧ entry (y i) k ≠ 0) (r : Except Err XR) :
    LogLikelihood (sparseObj K n L (some d) x y dyad b) (pfun K) p g sl r ↔
      r = .ok (elog (∏ k ∈ Finset.range L, Law.prob (Law.pairs n (sl.getD b))
        (layerProb K d x y k) (g.links3 n k))) :=
  (C80_multi_computed K n L p d x y hx hy dyad b sl g hs hc r).2 hself

/-- **C80** fails for self links of vertices without properties: they are not part of the ensemble
without self loops, in which this graph is certain, but the outcome is minus infinity. -/
theorem C80_multi_violated (K : Kind) (p : ℕ) (dyad : ℕ → ℕ → XR) :
    let g := Arg.multigraph 1 [{(0, 0)}]
    Law.prob (Law.pairs 1 false) (layerProb K (fun _ => 1) (fun _ => []) (fun _ => []) 0)
        (g.links3 1 0) = 1 ∧
    ∀ r, LogLikelihood (sparseObj K 1 1 (some fun _ => 1) (fun _ => []) (fun _ => []) dyad false)
      (pfun K) p g none r ↔ r = .ok ninf := by
  intro g
  constructor
  · have : Law.pairs 1 false = ∅ := by decide
    unfold Law.prob
    rw [this, Finset.prod_empty]
  · intro r
    refine (C80_multi_computed K 1 1 p (fun _ => 1) (fun _ => []) (fun _ => []) (fun _ => by
      simp [RowSorted]) (fun _ => by simp [RowSorted]) dyad false none g rfl trivial r).1 rfl ?_
    refine ⟨0, one_pos, 0, one_pos, ?_, Or.inl rfl⟩
    rw [Layer.Method.Arg.mem_links3]
    exact ⟨⟨one_pos, one_pos⟩, by simp [g, Layer.Method.Arg.IsLink3]⟩

/-- **C80**, unlabelled graphs: the only outcome is the logarithm of the probability of the graph in
the ensemble with labels forgotten, for every number of blocks. -/
theorem C80_multi_matrix (K : Kind) (n L : ℕ) {p : ℕ} (hp : 0 < p) (d : ℕ → ℝ≥0∞)
    (x y : ℕ → List (ℕ × ℝ≥0∞)) (hx : ∀ i, RowSorted (x i)) (hy : ∀ i, RowSorted (y i))
    (hxL : ∀ i, ∀ e ∈ x i, e.1 < L) (hyL : ∀ i, ∀ e ∈ y i, e.1 < L) (dyad : ℕ → ℕ → XR) (b : Bool)
    (sl : Option Bool) (g : Arg) (hs : g.matrixShape = some (n, n)) (hc : g.Clean n)
    (r : Except Err XR) :
    LogLikelihood (sparseObj K n L (some d) x y dyad b) (pfun K) p g sl r ↔
      r = .ok (elog (Law.prob (Law.pairs n (sl.getD b)) (anyProb K L d x y) (g.links2 n))) := by
  obtain ⟨nbrs, h1, h2⟩ := Layer.Method.adjOf_matrix hs hc
  let s := sl.getD b
  have hE := multi_is K L d x y hx hy hxL hyL
  have hadj : (Layer.Method.Sparse.adjOf g >>= fun adj =>
      Layer.Method.Sparse.checkShape n L adj >>= fun _ => .ok adj)
      = .ok (.matrix (n, n) nbrs) := by
    rw [h1]
    show (Layer.Method.Sparse.checkShape n L (.matrix (n, n) nbrs) >>= fun _ => _) = _
    rw [show Layer.Method.Sparse.checkShape n L (.matrix (n, n) nbrs) = .ok () from
      if_neg (not_not.2 rfl)]
    rfl
  have hrun : LogLikelihood (sparseObj K n L (some d) x y dyad b) (pfun K) p g sl r ↔
      ∃ v, Folds (· + ·) 0 (likelihoodTasks (K.sparseEns d x y) n p
        (fun i j => (nbrs i).contains j) s) v ∧ r = .ok v := by
    rw [← ens_eq K n L d x y dyad b]
    show (match (Layer.Method.Sparse.adjOf g >>= fun adj =>
      Layer.Method.Sparse.checkShape n L adj >>= fun _ => .ok adj) with
      | .error e => r = .error e
      | .ok (.tensor layers) => _
      | .ok (.matrix _ nbrs) => _) ↔ _
    rw [hadj]
    rfl
  have hval : ∀ v, Folds (· + ·) 0 (likelihoodTasks (K.sparseEns d x y) n p
        (fun i j => (nbrs i).contains j) s) v →
      v = elog (Law.prob (Law.pairs n s) (anyProb K L d x y) (g.links2 n)) := by
    intro v hv
    rw [C43_log_likelihood hE.coherent (multi_dyadFree K d x y) hp _ _ hv,
      ← (C12_formula hE n s (g.links2 n)).1]
    exact Verif.Method.likelihood_congr hE.coherent h2
  rw [hrun]
  constructor
  · rintro ⟨v, hv, rfl⟩
    rw [hval v hv]
  · rintro rfl
    have hf := folds_fold (· + ·) (0 : XR) (likelihoodTasks (K.sparseEns d x y) n p
        (fun i j => (nbrs i).contains j) s)
    exact ⟨_, hf, by rw [hval _ hf]⟩

/-- The tests of the argument are those of the sparse backend. -/
theorem logLikelihood_error (o : Obj (List (ℕ × XR)))
    (p_ij : (ℕ → XR) → List (ℕ × XR) → List (ℕ × XR) → XR) (p : ℕ) (g : Arg) (sl : Option Bool)
    (e : Err) (h : Layer.Method.Sparse.log_likelihood o g sl = .error e) (r : Except Err XR) :
    LogLikelihood o p_ij p g sl r ↔ r = .error e := by
  unfold Layer.Method.Sparse.log_likelihood at h
  unfold LogLikelihood
  cases hp : o.param with
  | none => rw [hp] at h; cases h; rfl
  | some θ =>
    rw [hp] at h
    dsimp only at h ⊢
    cases ha : Layer.Method.Sparse.adjOf g with
    | error e' =>
      rw [ha] at h
      cases h
      rfl
    | ok adj =>
      rw [ha] at h
      replace h : (Layer.Method.Sparse.checkShape o.num_vertices o.num_labels adj >>= fun _ => _)
        = .error e := h
      show (match (Layer.Method.Sparse.checkShape o.num_vertices o.num_labels adj >>= fun _ =>
          (.ok adj : Except Err _)) with
        | .error e => r = .error e
        | .ok (.tensor layers) => _
        | .ok (.matrix _ nbrs) => _) ↔ _
      cases hc : Layer.Method.Sparse.checkShape o.num_vertices o.num_labels adj with
      | error e' =>
        rw [hc] at h
        cases h
        rfl
      | ok _ =>
        rw [hc] at h
        cases adj <;> cases h

/-- **C80**, refused arguments of `log_likelihood`. -/
theorem C80_multi_rejected (o : Obj (List (ℕ × XR)))
    (p_ij : (ℕ → XR) → List (ℕ × XR) → List (ℕ × XR) → XR) (p : ℕ) (g : Arg) (sl : Option Bool)
    (r : Except Err XR) :
    (o.param = none → (LogLikelihood o p_ij p g sl r ↔ r = .error .notFitted)) ∧
    (o.param ≠ none →
      (g = .other → (LogLikelihood o p_ij p g sl r ↔ r = .error .badInput)) ∧
      (g = .arrayOther → (LogLikelihood o p_ij p g sl r ↔ r = .error .badDim)) ∧
      (∀ sh, g.matrixShape = some sh → sh ≠ (o.num_vertices, o.num_vertices) →
        (LogLikelihood o p_ij p g sl r ↔ r = .error .badShape)) ∧
      (∀ shs, g.layerShapes = some shs → shs.length ≠ o.num_labels →
        (LogLikelihood o p_ij p g sl r ↔ r = .error .badLayers)) ∧
      (∀ shs, g.layerShapes = some shs → shs.length = o.num_labels →
        (∃ sh ∈ shs, sh ≠ (o.num_vertices, o.num_vertices)) →
        (LogLikelihood o p_ij p g sl r ↔ r = .error .attributeError))) := by
  obtain ⟨h1, h2⟩ := Layer.Method.C73_sparse_rejected o g sl
  refine ⟨fun h => logLikelihood_error o p_ij p g sl _ (h1 h) r, fun h => ?_⟩
  obtain ⟨a, b, c, e, f⟩ := h2 h
  exact ⟨fun h => logLikelihood_error o p_ij p g sl _ (a h) r,
    fun h => logLikelihood_error o p_ij p g sl _ (b h) r,
    fun sh h h' => logLikelihood_error o p_ij p g sl _ (c sh h h') r,
    fun sh h h' => logLikelihood_error o p_ij p g sl _ (e sh h h') r,
    fun sh h h' h'' => logLikelihood_error o p_ij p g sl _ (f sh h h' h'') r⟩

/-- Two vertices with two labels, as a multigraph and as an array. -/
example : (Arg.multigraph 2 [{(0, 1)}, ∅]).layerShapes = some (List.replicate 2 (2, 2)) ∧
    (Arg.multigraph 2 [{(0, 1)}, ∅]).Clean 2 ∧
    (Arg.array2 (2, 2) (fun _ _ => 1)).matrixShape = some (2, 2) ∧
    ∀ i, RowSorted ((fun i => [(0, (i : ℝ≥0∞)), (1, 1)]) i) :=
  ⟨rfl, trivial, rfl, fun i => by simp [RowSorted]⟩

/-! ## `confusion_matrix` -/

/-- The shape of what `confusion_matrix` can read. -/
def confShape : Arg → Option (ℕ × ℕ)
  | .multigraph n _ => some (n, n)
  | g => g.matrixShape

/-- A link read by `confusion_matrix`: of a multigraph, with any label. -/
def IsConfLink : Arg → ℕ → ℕ → Prop
  | .multigraph _ layers, i, j => ∃ G ∈ layers, (i, j) ∈ G
  | g, i, j => g.IsLink2 i j

open Classical in
/-- The links among `n` vertices. -/
def confLinks (g : Arg) (n : ℕ) : Finset (ℕ × ℕ) :=
  (Finset.range n ×ˢ Finset.range n).filter (fun e => IsConfLink g e.1 e.2)

theorem mem_confLinks {g : Arg} {n i j : ℕ} (hi : i < n) (hj : j < n) :
    (i, j) ∈ confLinks g n ↔ IsConfLink g i j := by
  classical
  unfold confLinks
  simp [hi, hj]

theorem adjOf_ok {n : ℕ} {g : Arg} (hs : confShape g = some (n, n)) (hc : g.Clean n) :
    ∃ link, adjOf n g = .ok link ∧ ∀ i < n, ∀ j < n, link i j = true ↔ (i, j) ∈ confLinks g n := by
  cases g with
  | multigraph m layers =>
    obtain ⟨rfl, -⟩ := Prod.mk.inj (Option.some.inj hs)
    refine ⟨_, if_neg (not_not.2 rfl), fun i hi j hj => ?_⟩
    rw [mem_confLinks hi hj]
    simp [IsConfLink]
  | graph m G =>
    obtain ⟨rfl, -⟩ := Prod.mk.inj (Option.some.inj hs)
    refine ⟨_, if_neg (not_not.2 rfl), fun i hi j hj => ?_⟩
    rw [mem_confLinks hi hj]
    simp [IsConfLink, Layer.Method.Arg.IsLink2]
  | sparse m =>
    have h : m.shape = (n, n) := Option.some.inj hs
    refine ⟨_, if_neg (not_not.2 h), fun i hi j hj => ?_⟩
    rw [mem_confLinks hi hj, List.contains_iff_mem, Layer.Method.mem_csr_row hc hi]
    simp [IsConfLink, Layer.Method.Arg.IsLink2, hj]
  | array2 shape a =>
    have h : shape = (n, n) := Option.some.inj hs
    refine ⟨_, if_neg (not_not.2 h), fun i hi j hj => ?_⟩
    rw [mem_confLinks hi hj]
    simp [IsConfLink, Layer.Method.Arg.IsLink2]
  | array3 _ _ => cases hs
  | arrayOther => cases hs
  | list _ => cases hs
  | other => cases hs

/-- **C80**: the only outcome of `confusion_matrix` with given thresholds are the numbers of true and
false positives and negatives for links with any label. -/
theorem C80_multi_confusion (K : Kind) (n L : ℕ) {p : ℕ} (hp : 0 < p) (d : ℕ → ℝ≥0∞)
    (x y : ℕ → List (ℕ × ℝ≥0∞)) (hx : ∀ i, RowSorted (x i)) (hy : ∀ i, RowSorted (y i))
    (hxL : ∀ i, ∀ e ∈ x i, e.1 < L) (hyL : ∀ i, ∀ e ∈ y i, e.1 < L) (dyad : ℕ → ℕ → XR) (b : Bool)
    (g : Arg) (hs : confShape g = some (n, n)) (hc : g.Clean n) (m : ℕ) (th : ℕ → ℝ)
    (sl : Option Bool) :
    let o := sparseObj K n L (some d) x y dyad b
    (∃ r, Confusion o (pfun K) p g (.array m (fun k => fin (th k))) sl r) ∧
    ∀ r, Confusion o (pfun K) p g (.array m (fun k => fin (th k))) sl r →
      ∃ c, r = .ok (m, c) ∧ ∀ k < m,
        CountsAt n (sl.getD b) (anyProb K L d x y) (confLinks g n) (th k) c k := by
  intro o
  obtain ⟨link, hl, hlink⟩ := adjOf_ok hs hc
  have e : ∀ r, Confusion o (pfun K) p g (.array m (fun k => fin (th k))) sl r ↔
      ∃ c, Folds addConf Conf.zero (confusionTasks (K.sparseEns d x y) n p m (fun k => fin (th k)) link
        (sl.getD b)) c ∧ r = .ok (m, c) := by
    intro r
    rw [← ens_eq K n L d x y dyad b]
    have ht : thresholds (pRange o (fun k => ofENN (d k))) (.array m (fun k => fin (th k)))
        = .ok (m, fun k => fin (th k)) := by
      unfold thresholds; cases pRange o (fun k => ofENN (d k)) <;> rfl
    show (match thresholds (pRange o (fun k => ofENN (d k))) (.array m (fun k => fin (th k))) with
      | .error e => r = .error e
      | .ok (M, t) => _) ↔ _
    rw [ht]
    show (match adjOf n g with
      | .error e => r = .error e
      | .ok link => _) ↔ _
    rw [hl]
    rfl
  refine ⟨⟨_, (e _).2 ⟨_, folds_fold _ _ _, rfl⟩⟩, fun r hr => ?_⟩
  obtain ⟨c, hc', rfl⟩ := (e r).1 hr
  exact ⟨c, rfl, fun k hk => counts_at (multi_dyadFree K d x y)
    (fun i j => (multi_is K L d x y hx hy hxL hyL).p_eq i j) hp _ _ link hlink m th hc' k hk⟩

/-- **C80**: the exceptions of `confusion_matrix`. -/
theorem C80_multi_confusion_errors (o : Obj (List (ℕ × XR)))
    (p_ij : (ℕ → XR) → List (ℕ × XR) → List (ℕ × XR) → XR) (p : ℕ) (g : Arg) (th : ThArg)
    (sl : Option Bool) (r : Except ConfErr (ℕ × Conf)) :
    (o.param = none → (Confusion o p_ij p g th sl r ↔ r = .error .notFitted)) ∧
    (o.param ≠ none → th = .other →
      (Confusion o p_ij p g th sl r ↔ r = .error (.thresholds .valueError))) ∧
    (∀ m t, o.param ≠ none → th = .array m t →
      (∀ ms, g = .list ms → (Confusion o p_ij p g th sl r ↔ r = .error .badInput)) ∧
      (g = .other → (Confusion o p_ij p g th sl r ↔ r = .error .badInput)) ∧
      (∀ sh a, g = .array3 sh a → (Confusion o p_ij p g th sl r ↔ r = .error .badDim)) ∧
      (∀ sh, confShape g = some sh → sh ≠ (o.num_vertices, o.num_vertices) →
        (Confusion o p_ij p g th sl r ↔ r = .error .badShape))) := by
  refine ⟨fun h => ?_, fun h ht => ?_, fun m t h ht => ?_⟩
  · unfold Confusion; rw [h]
  · obtain ⟨θ, hθ⟩ := Option.ne_none_iff_exists'.1 h
    unfold Confusion; rw [hθ, ht]
    dsimp only
    have : thresholds (pRange o θ) .other = .error (.thresholds .valueError) := by
      unfold thresholds; cases pRange o θ <;> rfl
    rw [this]
  · obtain ⟨θ, hθ⟩ := Option.ne_none_iff_exists'.1 h
    have key : ∀ e, adjOf o.num_vertices g = .error e →
        (Confusion o p_ij p g th sl r ↔ r = .error e) := by
      intro e he
      unfold Confusion; rw [hθ, ht]
      dsimp only
      have : thresholds (pRange o θ) (.array m t) = .ok (m, t) := by
        unfold thresholds; cases pRange o θ <;> rfl
      rw [this]
      dsimp only
      rw [he]
    refine ⟨fun ms hg => key _ (by rw [hg]; rfl), fun hg => key _ (by rw [hg]; rfl),
      fun sh a hg => key _ (by rw [hg]; rfl), fun sh hsh hne => key _ ?_⟩
    cases g with
    | multigraph k layers =>
      obtain rfl := Option.some.inj hsh
      exact if_pos (fun h => hne (by rw [h]))
    | graph k G =>
      obtain rfl := Option.some.inj hsh
      exact if_pos (fun h => hne (by rw [h]))
    | sparse a =>
      obtain rfl := Option.some.inj hsh
      exact if_pos hne
    | array2 shape a =>
      obtain rfl := Option.some.inj hsh
      exact if_pos hne
    | array3 _ _ => cases hsh
    | arrayOther => cases hsh
    | list _ => cases hsh
    | other => cases hsh

end MultiMethod

end Spark

end

end Verif
