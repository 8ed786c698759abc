import Verif.Layer.Method
import Verif.Layer.LawProps

/-!
# C73: `log_likelihood` of multi-layer ensembles
-/

namespace Verif

noncomputable section

open XR Spec DiGraphEnsemble
open scoped ENNReal

namespace Layer

namespace Method

open Verif.Method (Stored)

/-! ## Specification of the arguments -/

/-- Non-zero entries of a matrix. -/
def Mat2.IsLink : Mat2 → ℕ → ℕ → Prop
  | .sparse m, i, j => m.val i j ≠ 0
  | .ndarray _ a, i, j => a i j ≠ 0

/-- Shape of a matrix. -/
def Mat2.shape : Mat2 → ℕ × ℕ
  | .sparse m => m.shape
  | .ndarray s _ => s

/-- Every stored entry of the first `n` rows is non-zero and in one of the first `n` columns. -/
def Clean (n : ℕ) (m : Stored) : Prop := ∀ i < n, ∀ e ∈ m.row i, e.1 < n ∧ m.val i e.1 ≠ 0

/-- The shapes of the layers of a labelled graph; `none` for other arguments. -/
def Arg.layerShapes : Arg → Option (List (ℕ × ℕ))
  | .multigraph n layers => some (List.replicate layers.length (n, n))
  | .array3 shape _ => some (List.replicate shape.1 shape.2)
  | .list ms => some (ms.map Mat2.shape)
  | _ => none

/-- The shape of an unlabelled graph. -/
def Arg.matrixShape : Arg → Option (ℕ × ℕ)
  | .graph n _ => some (n, n)
  | .sparse m => some m.shape
  | .array2 shape _ => some shape
  | _ => none

/-- Link `(i, j)` with label `k`. -/
def Arg.IsLink3 : Arg → ℕ → ℕ → ℕ → Prop
  | .multigraph _ layers, k, i, j => ∃ G, layers[k]? = some G ∧ (i, j) ∈ G
  | .array3 _ a, k, i, j => a k i j ≠ 0
  | .list ms, k, i, j => ∃ m, ms[k]? = some m ∧ m.IsLink i j
  | _, _, _, _ => False

/-- Unlabelled link `(i, j)`. -/
def Arg.IsLink2 : Arg → ℕ → ℕ → Prop
  | .graph _ G, i, j => (i, j) ∈ G
  | .sparse m, i, j => m.val i j ≠ 0
  | .array2 _ a, i, j => a i j ≠ 0
  | _, _, _ => False

/-- No matrix stores zeros (or columns outside of the matrix). -/
def Arg.Clean (n : ℕ) : Arg → Prop
  | .sparse m => Method.Clean n m
  | .list ms => ∀ m, Mat2.sparse m ∈ ms → Method.Clean n m
  | _ => True

open Classical in
/-- The links with label `k` among `n` vertices. -/
def Arg.links3 (g : Arg) (n k : ℕ) : Finset (ℕ × ℕ) :=
  (Finset.range n ×ˢ Finset.range n).filter (fun e => g.IsLink3 k e.1 e.2)

open Classical in
/-- The unlabelled links among `n` vertices. -/
def Arg.links2 (g : Arg) (n : ℕ) : Finset (ℕ × ℕ) :=
  (Finset.range n ×ˢ Finset.range n).filter (fun e => g.IsLink2 e.1 e.2)

theorem Arg.mem_links3 {g : Arg} {n k i j : ℕ} :
    (i, j) ∈ g.links3 n k ↔ (i < n ∧ j < n) ∧ g.IsLink3 k i j := by
  classical
  unfold Arg.links3
  simp

theorem Arg.mem_links2 {g : Arg} {n i j : ℕ} :
    (i, j) ∈ g.links2 n ↔ (i < n ∧ j < n) ∧ g.IsLink2 i j := by
  classical
  unfold Arg.links2
  simp

/-- The sparse models as objects. -/
def sparseObj (K : Kind) (n L : ℕ) (d : Option (ℕ → ℝ≥0∞)) (x y : ℕ → List (ℕ × ℝ≥0∞))
    (dyad : ℕ → ℕ → XR) (s : Bool) : Obj (List (ℕ × XR)) where
  link := K.link
  logp := match K with
    | .fit => Verif.Sparse.MultiFitnessModel.logp
    | .inv => Verif.Sparse.MultiInvariantModel.logp
  log1mp := match K with
    | .fit => Verif.Sparse.MultiFitnessModel.log1mp
    | .inv => Verif.Sparse.MultiInvariantModel.log1mp
  num_vertices := n
  num_labels := L
  prop_out i := rowX (x i)
  prop_in i := rowX (y i)
  prop_dyad := dyad
  selfloops := s
  param := d.map (fun d k => ofENN (d k))

/-- The dense models as objects. -/
def denseObj (K : Kind) (n L : ℕ) (d : Option (ℕ → ℝ≥0∞)) (x y : ℕ → ℕ → ℝ≥0∞)
    (dyad : ℕ → ℕ → XR) (s : Bool) : Obj (List XR) where
  link := K.link
  logp := match K with
    | .fit => Verif.Dense.MultiFitnessModel.logp
    | .inv => Verif.Dense.MultiInvariantModel.logp
  log1mp := match K with
    | .fit => Verif.Dense.MultiFitnessModel.log1mp
    | .inv => Verif.Dense.MultiInvariantModel.log1mp
  num_vertices := n
  num_labels := L
  prop_out i := denseX L (x i)
  prop_in i := denseX L (y i)
  prop_dyad := dyad
  selfloops := s
  param := d.map (fun d k => ofENN (d k))

/-! ## Lemmas -/

theorem mem_csr_row {n : ℕ} {m : Stored} (hm : Clean n m) {i : ℕ} (hi : i < n) (j : ℕ) :
    j ∈ (m.row i).map Prod.fst ↔ j < n ∧ m.val i j ≠ 0 := by
  constructor
  · intro h
    obtain ⟨e, he, rfl⟩ := List.mem_map.1 h
    exact hm i hi e he
  · rintro ⟨-, h⟩
    have := Verif.Method.mem_row_of_val_ne h
    rwa [List.contains_iff_mem] at this

theorem mem_denseRow {c : ℕ} {a : ℕ → ℝ} {j : ℕ} : j ∈ Sparse.denseRow c a ↔ j < c ∧ a j ≠ 0 := by
  simp [Sparse.denseRow]

theorem mem_ofLinks {n : ℕ} {G : Finset (ℕ × ℕ)} {i j : ℕ} :
    j ∈ Sparse.ofLinks n G i ↔ j < n ∧ (i, j) ∈ G := by
  simp [Sparse.ofLinks]

/-- The tensor built from a labelled argument of the right shapes. -/
theorem adjOf_tensor {g : Arg} {n L : ℕ} (hs : g.layerShapes = some (List.replicate L (n, n)))
    (hc : g.Clean n) :
    ∃ layers, Sparse.adjOf g = .ok (.tensor layers) ∧ layers.map Prod.fst = List.replicate L (n, n) ∧
      ∀ k < L, ∀ i < n, ∀ j, j ∈ (layers[k]?.map (fun x => x.2 i)).getD [] ↔
        (i, j) ∈ g.links3 n k := by
  cases g with
  | multigraph n' layers =>
    have hs' := Option.some.inj hs
    have hlen : layers.length = L := by simpa using congrArg List.length hs'
    refine ⟨_, rfl, ?_, ?_⟩
    · rw [← hs', List.map_map]
      exact List.map_const ..
    · intro k hk i hi j
      have hk' : k < layers.length := by omega
      have hn : n' = n := by
        rw [hlen] at hs'
        have := List.replicate_inj.1 hs'
        rcases this.2 with h | h
        · omega
        · exact (Prod.mk.inj h).1
      subst hn
      rw [List.getElem?_map, List.getElem?_eq_getElem hk', Arg.mem_links3]
      simp only [Option.map_some, Option.getD_some, mem_ofLinks, Arg.IsLink3]
      constructor
      · rintro ⟨h1, h2⟩
        exact ⟨⟨hi, h1⟩, _, List.getElem?_eq_getElem hk', h2⟩
      · rintro ⟨⟨-, h1⟩, G, hG, h2⟩
        rw [List.getElem?_eq_getElem hk'] at hG
        cases hG
        exact ⟨h1, h2⟩
  | array3 shape a =>
    have hs' := Option.some.inj hs
    have hlen : shape.1 = L := by simpa using congrArg List.length hs'
    refine ⟨_, rfl, ?_, ?_⟩
    · rw [← hs', List.map_map]
      exact (List.map_const ..).trans (by simp)
    · intro k hk i hi j
      have hn : shape.2 = (n, n) := by
        rw [hlen] at hs'
        rcases (List.replicate_inj.1 hs').2 with h | h
        · omega
        · exact h
      rw [List.getElem?_map, List.getElem?_range (by omega), Arg.mem_links3]
      simp only [Option.map_some, Option.getD_some, mem_denseRow, hn, Arg.IsLink3]
      exact ⟨fun h => ⟨⟨hi, h.1⟩, h.2⟩, fun h => ⟨h.1.2, h.2⟩⟩
  | list ms =>
    have hs' := Option.some.inj hs
    have hlen : ms.length = L := by simpa using congrArg List.length hs'
    refine ⟨_, rfl, ?_, ?_⟩
    · rw [← hs', List.map_map]
      refine List.map_congr_left (fun m _ => ?_)
      cases m <;> rfl
    · intro k hk i hi j
      have hk' : k < ms.length := by omega
      have hn : ms[k].shape = (n, n) := by
        have h1 : (ms.map Mat2.shape)[k]? = some ms[k].shape := by
          rw [List.getElem?_map, List.getElem?_eq_getElem hk']; rfl
        rw [hs', List.getElem?_replicate, if_pos hk] at h1
        exact (Option.some.inj h1).symm
      rw [List.getElem?_map, List.getElem?_eq_getElem hk', Arg.mem_links3]
      simp only [Option.map_some, Option.getD_some, Arg.IsLink3, List.getElem?_eq_getElem hk',
        Option.some_inj, exists_eq_left']
      have hmem : ms[k] ∈ ms := List.getElem_mem hk'
      generalize ms[k] = m at hn hmem
      cases m with
      | sparse m =>
        rw [Sparse.csr, mem_csr_row (hc m hmem) hi]
        exact ⟨fun h => ⟨⟨hi, h.1⟩, h.2⟩, fun h => ⟨h.1.2, h.2⟩⟩
      | ndarray s a =>
        rw [show s = (n, n) from hn, Sparse.csr, mem_denseRow]
        exact ⟨fun h => ⟨⟨hi, h.1⟩, h.2⟩, fun h => ⟨h.1.2, h.2⟩⟩
  | _ => cases hs

theorem adjOf_matrix {g : Arg} {n : ℕ} (hs : g.matrixShape = some (n, n)) (hc : g.Clean n) :
    ∃ nbrs, Sparse.adjOf g = .ok (.matrix (n, n) nbrs) ∧
      ∀ i < n, ∀ j < n, (nbrs i).contains j = decide ((i, j) ∈ g.links2 n) := by
  cases g with
  | graph n' G =>
    obtain rfl : n' = n := (Prod.mk.inj (Option.some.inj hs)).1
    refine ⟨_, rfl, fun i hi j hj => ?_⟩
    rw [Bool.eq_iff_iff, List.contains_iff_mem, mem_ofLinks, decide_eq_true_iff, Arg.mem_links2]
    exact ⟨fun h => ⟨⟨hi, hj⟩, h.2⟩, fun h => ⟨hj, h.2⟩⟩
  | sparse m =>
    have h := Option.some.inj hs
    refine ⟨_, by rw [← h]; rfl, fun i hi j hj => ?_⟩
    rw [Bool.eq_iff_iff, List.contains_iff_mem, mem_csr_row hc hi, decide_eq_true_iff,
      Arg.mem_links2]
    exact ⟨fun h => ⟨⟨hi, hj⟩, h.2⟩, fun h => ⟨hj, h.2⟩⟩
  | array2 shape a =>
    have h : shape = (n, n) := Option.some.inj hs
    subst h
    refine ⟨_, rfl, fun i hi j hj => ?_⟩
    rw [Bool.eq_iff_iff, List.contains_iff_mem, mem_denseRow, decide_eq_true_iff, Arg.mem_links2]
    exact ⟨fun h => ⟨⟨hi, hj⟩, h.2⟩, fun h => ⟨hj, h.2⟩⟩
  | _ => cases hs

theorem foldlM_shape (n : ℕ) (layers : List ((ℕ × ℕ) × (ℕ → List ℕ))) :
    layers.foldlM (fun _ x => if x.1 ≠ (n, n) then (.error Err.attributeError : Except Err Unit)
      else .ok ()) ()
      = if ∀ x ∈ layers, x.1 = (n, n) then .ok () else .error .attributeError := by
  induction layers with
  | nil => simp; rfl
  | cons x t ih =>
    rw [List.foldlM_cons]
    by_cases hx : x.1 = (n, n)
    · rw [if_neg (not_not.2 hx)]
      refine Eq.trans (show _ = t.foldlM (fun _ x => if x.1 ≠ (n, n) then
        (.error Err.attributeError : Except Err Unit) else .ok ()) () from rfl) ?_
      rw [ih]
      exact if_congr ⟨fun h => List.forall_mem_cons.2 ⟨hx, h⟩, fun h => (List.forall_mem_cons.1 h).2⟩
        rfl rfl
    · rw [if_pos hx, if_neg (fun h => hx (h x (by simp)))]
      rfl

theorem checkShape_tensor {n L : ℕ} {layers : List ((ℕ × ℕ) × (ℕ → List ℕ))}
    (h : layers.map Prod.fst = List.replicate L (n, n)) :
    Sparse.checkShape n L (.tensor layers) = .ok () := by
  have hlen : layers.length = L := by simpa using congrArg List.length h
  refine (if_neg (not_not.2 hlen)).trans ((foldlM_shape n layers).trans (if_pos ?_))
  intro x hx
  have : x.1 ∈ layers.map Prod.fst := List.mem_map_of_mem hx
  rw [h] at this
  exact List.eq_of_mem_replicate this

/-! ## C73 -/

/-- **C73**, sparse, labelled graphs of the right shape, all cases: the value computed. -/
theorem C73_sparse_computed (K : Kind) (n L : ℕ) (d : ℕ → ℝ≥0∞) (x y : ℕ → List (ℕ × ℝ≥0∞))
    (hx : ∀ i, RowSorted (x i)) (hy : ∀ i, RowSorted (y i)) (dyad : ℕ → ℕ → XR) (b : Bool)
    (sl : Option Bool) (g : Arg) (hs : g.layerShapes = some (List.replicate L (n, n)))
    (hc : g.Clean n) :
    let s := sl.getD b
    (s = false → (∃ k < L, ∃ i < n, (i, i) ∈ g.links3 n k ∧
        (entry (x i) k = 0 ∨ entry (y i) k = 0)) →
      Sparse.log_likelihood (sparseObj K n L (some d) x y dyad b) g sl = .ok ninf) ∧
    ((s = true ∨ ∀ k < L, ∀ i < n, (i, i) ∈ g.links3 n k →
        entry (x i) k ≠ 0 ∧ entry (y i) k ≠ 0) →
      Sparse.log_likelihood (sparseObj K n L (some d) x y dyad b) g sl =
        .ok (elog (∏ k ∈ Finset.range L, Law.prob (Law.pairs n s)
          (fun e => K.q (d k * entry (x e.1) k * entry (y e.2) k)) (g.links3 n k)))) := by
  intro s
  obtain ⟨layers, h1, h2, h3⟩ := adjOf_tensor hs hc
  have hrun : Sparse.log_likelihood (sparseObj K n L (some d) x y dyad b) g sl =
      .ok (Layer.log_likelihood K.link.logp_ijk K.link.log1mp_ijk n L (fun k => ofENN (d k))
        (fun i => rowX (x i)) (fun i => rowX (y i)) dyad
        (fun k i => (layers[k]?.map (fun x => x.2 i)).getD []) s) := by
    unfold Sparse.log_likelihood
    show ((Sparse.adjOf g) >>= _) = _
    rw [h1]
    show ((Sparse.checkShape n L (.tensor layers)) >>= _) = _
    rw [checkShape_tensor h2]
    rfl
  have h := (C61_computed K n L d x y hx hy dyad s _ (fun k => g.links3 n k) h3
    (fun k _ e he => (Arg.mem_links3.1 (show (e.1, e.2) ∈ _ from he)).1)).1
  constructor
  · intro hsf hbad
    rw [hrun, h, if_pos ⟨hsf, hbad⟩]
  · intro hok
    rw [hrun, h, if_neg]
    · rfl
    · rintro ⟨hsf, k, hk, i, hi, hm, h0⟩
      rcases hok with hst | hok
      · rw [hsf] at hst; cases hst
      · rcases h0 with h0 | h0
        · exact (hok k hk i hi hm).1 h0
        · exact (hok k hk i hi hm).2 h0

/-- **C73**, sparse, labelled graphs: the logarithm of the probability of the labelled graph with
self-loops as requested by the argument.  What fails: stored zeros (`g.Clean`), and excluded
self-links of vertices without properties (`C61_violated`). -/
theorem C73_sparse_partial (K : Kind) (n L : ℕ) (d : ℕ → ℝ≥0∞) (x y : ℕ → List (ℕ × ℝ≥0∞))
    (hx : ∀ i, RowSorted (x i)) (hy : ∀ i, RowSorted (y i)) (dyad : ℕ → ℕ → XR) (b : Bool)
    (sl : Option Bool) (g : Arg) (hs : g.layerShapes = some (List.replicate L (n, n)))
    (hc : g.Clean n) (hself : sl.getD b = true ∨ ∀ k < L, ∀ i < n, (i, i) ∈ g.links3 n k →
        entry (x i) k ≠ 0 ∧ entry (y i) k ≠ 0) :
    Sparse.log_likelihood (sparseObj K n L (some d) x y dyad b) g sl =
      .ok (elog (∏ k ∈ Finset.range L, Law.prob (Law.pairs n (sl.getD b))
        (fun e => K.q (d k * entry (x e.1) k * entry (y e.2) k)) (g.links3 n k))) :=
  (C73_sparse_computed K n L d x y hx hy dyad b sl g hs hc).2 hself

/-- **C73**, sparse, unlabelled graphs: the logarithm of the probability of the graph in the
projected ensemble. -/
theorem C73_sparse_matrix (K : Kind) (n L : ℕ) (d : ℕ → ℝ≥0∞) (x y : ℕ → List (ℕ × ℝ≥0∞))
    (hx : ∀ i, RowSorted (x i)) (hy : ∀ i, RowSorted (y i))
    (hxL : ∀ i, ∀ e ∈ x i, e.1 < L) (hyL : ∀ i, ∀ e ∈ y i, e.1 < L) (dyad : ℕ → ℕ → XR) (b : Bool)
    (sl : Option Bool) (g : Arg) (hs : g.matrixShape = some (n, n)) (hc : g.Clean n) :
    Sparse.log_likelihood (sparseObj K n L (some d) x y dyad b) g sl =
      .ok (elog (Law.prob (Law.pairs n (sl.getD b)) (fun e => 1 - ∏ k ∈ Finset.range L,
        (1 - K.q (d k * entry (x e.1) k * entry (y e.2) k))) (g.links2 n))) := by
  obtain ⟨nbrs, h1, h2⟩ := adjOf_matrix hs hc
  have hrun : Sparse.log_likelihood (sparseObj K n L (some d) x y dyad b) g sl =
      .ok ((K.sparseEns d x y).likelihood n (fun i j => (nbrs i).contains j) (sl.getD b)) := by
    unfold Sparse.log_likelihood
    show ((Sparse.adjOf g) >>= _) = _
    rw [h1]
    show ((Sparse.checkShape n L (.matrix (n, n) nbrs)) >>= _) = _
    rw [show Sparse.checkShape n L (.matrix (n, n) nbrs) = .ok () from if_neg (not_not.2 rfl)]
    cases K <;> rfl
  rw [hrun]
  congr 1
  have hE : (K.sparseEns d x y).Is (fun e => 1 - ∏ k ∈ Finset.range L,
        (1 - K.q (d k * entry (x e.1) k * entry (y e.2) k))) := by
    cases K
    · exact .sparseMultiFit L d x y hx hy hxL hyL
    · exact .sparseMultiInv L d x y hx hy hxL hyL
  rw [← (C12_formula hE n (sl.getD b) (g.links2 n)).1]
  exact Verif.Method.likelihood_congr hE.coherent h2

/-- **C73**, sparse, rejected arguments. -/
theorem C73_sparse_rejected (o : Obj (List (ℕ × XR))) (g : Arg) (sl : Option Bool) :
    (o.param = none → Sparse.log_likelihood o g sl = .error .notFitted) ∧
    (o.param ≠ none →
      (g = .other → Sparse.log_likelihood o g sl = .error .badInput) ∧
      (g = .arrayOther → Sparse.log_likelihood o g sl = .error .badDim) ∧
      (∀ sh, g.matrixShape = some sh → sh ≠ (o.num_vertices, o.num_vertices) →
        Sparse.log_likelihood o g sl = .error .badShape) ∧
      (∀ shs, g.layerShapes = some shs → shs.length ≠ o.num_labels →
        Sparse.log_likelihood o g sl = .error .badLayers) ∧
      (∀ shs, g.layerShapes = some shs → shs.length = o.num_labels →
        (∃ sh ∈ shs, sh ≠ (o.num_vertices, o.num_vertices)) →
        Sparse.log_likelihood o g sl = .error .attributeError)) := by
  constructor
  · intro h
    unfold Sparse.log_likelihood
    rw [h]
  · intro h
    obtain ⟨p, hp⟩ := Option.ne_none_iff_exists'.1 h
    unfold Sparse.log_likelihood
    rw [hp]
    refine ⟨by rintro rfl; rfl, by rintro rfl; rfl, ?_, ?_, ?_⟩
    · intro sh hsh hne
      cases g with
      | graph n G =>
        cases hsh
        show (Sparse.checkShape _ _ (.matrix (n, n) _) >>= _) = _
        rw [Sparse.checkShape, if_pos hne]; rfl
      | sparse m =>
        cases hsh
        show (Sparse.checkShape _ _ (.matrix m.shape _) >>= _) = _
        rw [Sparse.checkShape, if_pos hne]; rfl
      | array2 shape a =>
        obtain rfl := Option.some.inj hsh
        show (Sparse.checkShape _ _ (.matrix _ _) >>= _) = _
        rw [Sparse.checkShape, if_pos hne]; rfl
      | _ => cases hsh
    · intro shs hshs hne
      have key : ∀ layers, layers.map Prod.fst = shs →
          Sparse.checkShape o.num_vertices o.num_labels (.tensor layers) = .error .badLayers := by
        rintro layers rfl
        exact if_pos (by simpa using hne)
      cases g with
      | multigraph n layers =>
        show (Sparse.checkShape _ _ (.tensor _) >>= _) = _
        rw [key _ (by rw [← Option.some.inj hshs, List.map_map]; exact List.map_const ..)]; rfl
      | array3 shape a =>
        show (Sparse.checkShape _ _ (.tensor _) >>= _) = _
        rw [key _ (by
          rw [← Option.some.inj hshs, List.map_map]; exact (List.map_const ..).trans (by simp))]
        rfl
      | list ms =>
        show (Sparse.checkShape _ _ (.tensor _) >>= _) = _
        rw [key _ (by
          rw [← Option.some.inj hshs, List.map_map]
          exact List.map_congr_left (fun m _ => by cases m <;> rfl))]
        rfl
      | _ => cases hshs
    · intro shs hshs hlen hbad
      have key : ∀ layers, layers.map Prod.fst = shs →
          Sparse.checkShape o.num_vertices o.num_labels (.tensor layers)
            = .error .attributeError := by
        rintro layers rfl
        refine (if_neg (by simpa using hlen)).trans ((foldlM_shape _ layers).trans (if_neg ?_))
        obtain ⟨sh, hsh, hne⟩ := hbad
        obtain ⟨z, hz, rfl⟩ := List.mem_map.1 hsh
        exact fun h => hne (h z hz)
      cases g with
      | multigraph n layers =>
        show (Sparse.checkShape _ _ (.tensor _) >>= _) = _
        rw [key _ (by rw [← Option.some.inj hshs, List.map_map]; exact List.map_const ..)]; rfl
      | array3 shape a =>
        show (Sparse.checkShape _ _ (.tensor _) >>= _) = _
        rw [key _ (by
          rw [← Option.some.inj hshs, List.map_map]; exact (List.map_const ..).trans (by simp))]
        rfl
      | list ms =>
        show (Sparse.checkShape _ _ (.tensor _) >>= _) = _
        rw [key _ (by
          rw [← Option.some.inj hshs, List.map_map]
          exact List.map_congr_left (fun m _ => by cases m <;> rfl))]
        rfl
      | _ => cases hshs

theorem denseX_getD {L k : ℕ} (hk : k < L) (x : ℕ → ℝ≥0∞) : (denseX L x).getD k 0 = ofENN (x k) := by
  unfold denseX
  rw [List.getD_eq_getElem?_getD, List.getElem?_map, List.getElem?_range hk]
  rfl

theorem likelihood_tensor_congr (lp l1 : XR → XR → XR → XR → XR) (n L : ℕ) (d : ℕ → XR)
    {x x' y y' : ℕ → ℕ → XR} (dyad : ℕ → ℕ → XR) {a a' : ℕ → ℕ → ℕ → Bool} (s : Bool)
    (hx : ∀ k < L, ∀ i, x i k = x' i k) (hy : ∀ k < L, ∀ i, y i k = y' i k)
    (ha : ∀ k < L, ∀ i < n, ∀ j < n, a k i j = a' k i j) :
    Layer.Dense.likelihood_tensor lp l1 n L d x y dyad a s =
      Layer.Dense.likelihood_tensor lp l1 n L d x' y' dyad a' s := by
  unfold Layer.Dense.likelihood_tensor
  congr 1
  have cg : ∀ {α β : Type} (l : List α) (f f' : β → α → Except XR β)
      (_ : ∀ a ∈ l, ∀ b, f b a = f' b a) (b : β), l.foldlM f b = l.foldlM f' b := by
    intro α β l f f' h
    induction l with
    | nil => intro b; rfl
    | cons a t ih =>
      intro b
      rw [List.foldlM_cons, List.foldlM_cons, h a (by simp)]
      congr 1
      funext c
      exact ih (fun a ha => h a (by simp [ha])) c
  refine cg _ _ _ (fun k hk c => ?_) _
  rw [List.mem_range] at hk
  refine cg _ _ _ (fun i hi c => ?_) _
  rw [List.mem_range] at hi
  refine cg _ _ _ (fun j hj c => ?_) _
  rw [List.mem_range] at hj
  rw [hx k hk i, hy k hk j, ha k hk i hi j hj]

/-- **C73**, dense, arrays and graph objects: the logarithm of the probability. -/
theorem C73_dense (K : Kind) (n L : ℕ) (d : ℕ → ℝ≥0∞) (x y : ℕ → ℕ → ℝ≥0∞)
    (dyad : ℕ → ℕ → XR) (b : Bool) (sl : Option Bool) (g : Arg) :
    (g.layerShapes = some (List.replicate L (n, n)) → 0 < L → (∀ ms, g ≠ .list ms) →
      Dense.log_likelihood (denseObj K n L (some d) x y dyad b) g sl =
        .ok (elog (∏ k ∈ Finset.range L, Law.prob (Law.pairs n (sl.getD b))
          (fun e => K.q (d k * x e.1 k * y e.2 k)) (g.links3 n k)))) ∧
    (g.matrixShape = some (n, n) →
      Dense.log_likelihood (denseObj K n L (some d) x y dyad b) g sl =
        .ok (elog (Law.prob (Law.pairs n (sl.getD b)) (fun e => 1 - ∏ k ∈ Finset.range L,
          (1 - K.q (d k * x e.1 k * y e.2 k))) (g.links2 n)))) := by
  constructor
  · intro hs hL hlist
    have hadj : ∃ a, Dense.adjOf g = .ok (.tensor (L, n, n) a) ∧
        ∀ k < L, ∀ i < n, ∀ j < n, a k i j = decide ((i, j) ∈ g.links3 n k) := by
      cases g with
      | multigraph n' layers =>
        have hs' := Option.some.inj hs
        have hlen : layers.length = L := by simpa using congrArg List.length hs'
        rw [hlen] at hs'
        obtain rfl : n' = n := by
          rcases (List.replicate_inj.1 hs').2 with h | h
          · omega
          · exact (Prod.mk.inj h).1
        refine ⟨_, by rw [← hlen]; rfl, fun k hk i hi j hj => ?_⟩
        have hk' : k < layers.length := by omega
        rw [Bool.eq_iff_iff, List.getElem?_eq_getElem hk', decide_eq_true_iff, Arg.mem_links3]
        simp only [Option.map_some, Option.getD_some, decide_eq_true_eq, Arg.IsLink3,
          List.getElem?_eq_getElem hk', Option.some_inj, exists_eq_left', hi, hj, true_and]
      | array3 shape a =>
        have hs' := Option.some.inj hs
        have hlen : shape.1 = L := by simpa using congrArg List.length hs'
        have h2 : shape.2 = (n, n) := by
          rw [hlen] at hs'
          rcases (List.replicate_inj.1 hs').2 with h | h
          · omega
          · exact h
        have : shape = (L, n, n) := Prod.ext hlen h2
        subst this
        refine ⟨_, rfl, fun k hk i hi j hj => ?_⟩
        rw [Bool.eq_iff_iff, decide_eq_true_iff, decide_eq_true_iff, Arg.mem_links3]
        simp only [Arg.IsLink3, hi, hj, true_and]
      | list ms => exact absurd rfl (hlist ms)
      | _ => cases hs
    obtain ⟨a, h1, h2⟩ := hadj
    have hrun : Dense.log_likelihood (denseObj K n L (some d) x y dyad b) g sl =
        .ok (Layer.Dense.likelihood_tensor K.link.logp_ijk K.link.log1mp_ijk n L
          (fun k => ofENN (d k)) (fun i k => (denseX L (x i)).getD k 0)
          (fun i k => (denseX L (y i)).getD k 0) dyad a (sl.getD b)) := by
      unfold Dense.log_likelihood
      show ((Dense.adjOf g) >>= _) = _
      rw [h1]
      show ((Dense.checkShape n L (.tensor (L, n, n) a)) >>= _) = _
      rw [show Dense.checkShape n L (.tensor (L, n, n) a) = .ok () from if_neg (not_not.2 rfl)]
      rfl
    rw [hrun]
    congr 1
    refine Eq.trans ?_ (C61_dense K n L d x y dyad (sl.getD b) (fun k => g.links3 n k))
    exact likelihood_tensor_congr _ _ _ _ _ _ _ (fun k hk i => denseX_getD hk _)
      (fun k hk i => denseX_getD hk _) h2
  · intro hs
    have hadj : ∃ a, Dense.adjOf g = .ok (.matrix (n, n) a) ∧
        ∀ i < n, ∀ j < n, a i j = linkOf (g.links2 n) i j := by
      cases g with
      | graph n' G =>
        obtain rfl : n' = n := (Prod.mk.inj (Option.some.inj hs)).1
        refine ⟨_, rfl, fun i hi j hj => ?_⟩
        unfold linkOf
        rw [Bool.eq_iff_iff, decide_eq_true_iff, decide_eq_true_iff, Arg.mem_links2]
        simp only [Arg.IsLink2, hi, hj, true_and]
      | sparse m =>
        have h := Option.some.inj hs
        refine ⟨_, by rw [← h]; rfl, fun i hi j hj => ?_⟩
        unfold linkOf
        rw [Bool.eq_iff_iff, decide_eq_true_iff, decide_eq_true_iff, Arg.mem_links2]
        simp only [Arg.IsLink2, hi, hj, true_and]
      | array2 shape a =>
        have h : shape = (n, n) := Option.some.inj hs
        subst h
        refine ⟨_, rfl, fun i hi j hj => ?_⟩
        unfold linkOf
        rw [Bool.eq_iff_iff, decide_eq_true_iff, decide_eq_true_iff, Arg.mem_links2]
        simp only [Arg.IsLink2, hi, hj, true_and]
      | _ => cases hs
    obtain ⟨a, h1, h2⟩ := hadj
    have hrun : Dense.log_likelihood (denseObj K n L (some d) x y dyad b) g sl =
        .ok ((K.denseEns L d x y).likelihood n a (sl.getD b)) := by
      unfold Dense.log_likelihood
      show ((Dense.adjOf g) >>= _) = _
      rw [h1]
      show ((Dense.checkShape n L (.matrix (n, n) a)) >>= _) = _
      rw [show Dense.checkShape n L (.matrix (n, n) a) = .ok () from if_neg (not_not.2 rfl)]
      cases K <;> rfl
    rw [hrun]
    congr 1
    have hE : (K.denseEns L d x y).Is (fun e => 1 - ∏ k ∈ Finset.range L,
          (1 - K.q (d k * x e.1 k * y e.2 k))) := by
      cases K
      · exact .denseMultiFit L d x y
      · exact .denseMultiInv L d x y
    rw [← (C12_formula hE n (sl.getD b) (g.links2 n)).1]
    exact Verif.Method.likelihood_congr hE.coherent h2

/-- **C73**, dense, rejected arguments. -/
theorem C73_dense_rejected (o : Obj (List XR)) (g : Arg) (sl : Option Bool) :
    (o.param = none → Dense.log_likelihood o g sl = .error .notFitted) ∧
    (o.param ≠ none →
      (g = .other → Dense.log_likelihood o g sl = .error .badInput) ∧
      (g = .arrayOther → Dense.log_likelihood o g sl = .error .badDim) ∧
      (∀ sh, g.matrixShape = some sh → sh ≠ (o.num_vertices, o.num_vertices) →
        Dense.log_likelihood o g sl = .error .badShape) ∧
      (∀ shs, g.layerShapes = some shs → (∀ ms, g ≠ .list ms) →
        shs ≠ List.replicate o.num_labels (o.num_vertices, o.num_vertices) →
        Dense.log_likelihood o g sl = .error .badShape) ∧
      (∀ ms, g = .list ms → Dense.log_likelihood o g sl =
        .error (match ms with
          | [] => .indexError
          | .sparse _ :: _ => .attributeError
          | .ndarray _ _ :: _ => .badInput))) := by
  constructor
  · intro h
    unfold Dense.log_likelihood
    rw [h]
  · intro h
    obtain ⟨p, hp⟩ := Option.ne_none_iff_exists'.1 h
    unfold Dense.log_likelihood
    rw [hp]
    refine ⟨by rintro rfl; rfl, by rintro rfl; rfl, ?_, ?_, ?_⟩
    · intro sh hsh hne
      cases g with
      | graph n G =>
        cases hsh
        show (Dense.checkShape _ _ (.matrix (n, n) _) >>= _) = _
        rw [Dense.checkShape, if_pos hne]; rfl
      | sparse m =>
        cases hsh
        show (Dense.checkShape _ _ (.matrix m.shape _) >>= _) = _
        rw [Dense.checkShape, if_pos hne]; rfl
      | array2 shape a =>
        obtain rfl := Option.some.inj hsh
        show (Dense.checkShape _ _ (.matrix _ _) >>= _) = _
        rw [Dense.checkShape, if_pos hne]; rfl
      | _ => cases hsh
    · intro shs hshs hlist hne
      cases g with
      | multigraph n layers =>
        cases hshs
        show (Dense.checkShape _ _ (.tensor (layers.length, n, n) _) >>= _) = _
        rw [Dense.checkShape, if_pos]
        · rfl
        · intro heq
          obtain ⟨h1, h2⟩ := Prod.mk.inj heq
          exact hne (by rw [h1, h2])
      | array3 shape a =>
        cases hshs
        show (Dense.checkShape _ _ (.tensor shape _) >>= _) = _
        rw [Dense.checkShape, if_pos]
        · rfl
        · rintro rfl
          exact hne rfl
      | list ms => exact absurd rfl (hlist ms)
      | _ => cases hshs
    · rintro ms rfl
      match ms with
      | [] => rfl
      | .sparse _ :: _ => rfl
      | .ndarray _ _ :: _ => rfl

/-- The claim fails in two ways.  A labelled graph with the wrong number of vertices raises
`AttributeError` in the sparse backend while the dense one raises the intended `ValueError`; and the
dense backend raises `AttributeError` for every list of sparse matrices, although it announces to
accept them. -/
theorem C73_violated (K : Kind) (d : ℕ → ℝ≥0∞) (x y : ℕ → List (ℕ × ℝ≥0∞)) (x' y' : ℕ → ℕ → ℝ≥0∞)
    (dyad : ℕ → ℕ → XR) (b : Bool) (sl : Option Bool) :
    Sparse.log_likelihood (sparseObj K 2 1 (some d) x y dyad b) (.multigraph 3 [∅]) sl
      = .error .attributeError ∧
    Dense.log_likelihood (denseObj K 2 1 (some d) x' y' dyad b) (.multigraph 3 [∅]) sl
      = .error .badShape ∧
    ∀ m : Stored, Arg.layerShapes (.list [.sparse m]) = some [m.shape] ∧
      Dense.log_likelihood (denseObj K 2 1 (some d) x' y' dyad b) (.list [.sparse m]) sl
        = .error .attributeError := by
  refine ⟨?_, ?_, fun m => ⟨rfl, rfl⟩⟩
  · exact ((C73_sparse_rejected (sparseObj K 2 1 (some d) x y dyad b) (.multigraph 3 [∅]) sl).2
      (by simp [sparseObj])).2.2.2.2 _ rfl rfl ⟨(3, 3), by simp, by simp [sparseObj]⟩
  · exact ((C73_dense_rejected (denseObj K 2 1 (some d) x' y' dyad b) (.multigraph 3 [∅]) sl).2
      (by simp [denseObj])).2.2.2.1 _ rfl (by simp) (by simp [denseObj])

/-- Two vertices, one label, one link. -/
example : let g := Arg.multigraph 2 [{(0, 1)}]
    g.layerShapes = some (List.replicate 1 (2, 2)) ∧ g.Clean 2 ∧ (0, 1) ∈ g.links3 2 0 ∧
    (∀ k < 1, ∀ i < 2, (i, i) ∉ g.links3 2 k) := by
  intro g
  refine ⟨rfl, trivial, Arg.mem_links3.2 ⟨by norm_num, _, rfl, by simp⟩, ?_⟩
  rintro k hk i hi h
  obtain ⟨-, G, hG, h⟩ := Arg.mem_links3.1 h
  obtain rfl : k = 0 := by omega
  cases hG
  simp only [Finset.mem_singleton, Prod.mk.injEq] at h
  omega

example : (Arg.array2 (2, 2) (fun i j => if i < j then 3 else 0)).matrixShape = some (2, 2) ∧
    (0, 1) ∈ (Arg.array2 (2, 2) (fun i j => if i < j then 3 else 0)).links2 2 :=
  ⟨rfl, Arg.mem_links2.2 ⟨by norm_num, by simp [Arg.IsLink2]⟩⟩

end Method

end Layer

end

end Verif
