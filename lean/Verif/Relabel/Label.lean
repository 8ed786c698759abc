import Verif.Relabel.LawProps
import Verif.Relabel.Props
import Verif.Layer.CachedProps

/-!
# C90: label-resolved queries do not depend on the numbering of the vertices
-/

namespace Verif

open XR Spec
open scoped ENNReal

namespace Relabel

variable {σ : Equiv.Perm ℕ} {n : ℕ}

theorem range_renum (hσ : Renum n σ) : (List.range n).Perm ((List.range n).map σ.symm) := by
  rw [List.perm_ext_iff_of_nodup List.nodup_range
    (List.nodup_range.map σ.symm.injective)]
  intro i
  simp only [List.mem_range, List.mem_map]
  constructor
  · intro h
    exact ⟨σ i, (hσ i).2 h, by simp⟩
  · rintro ⟨a, ha, rfl⟩
    exact (hσ _).1 (by simpa using ha)

/-- A column of the renumbered properties: the same entries in the order of the new numbers. -/
theorem C90_column {α : Type} (hσ : Renum n σ) (rows : ℕ → List (ℕ × α)) (k : ℕ) :
    (Layer.column n (fun i => rows (σ i)) k).Perm
      ((Layer.column n rows k).map (fun e => (σ.symm e.1, e.2))) := by
  unfold Layer.column
  refine ((range_renum hσ).flatMap_right _).trans (List.Perm.of_eq ?_)
  rw [List.flatMap_map, List.map_flatMap]
  congr 1
  funext i
  simp

section

attribute [local instance] addMonoid

theorem edges_layer_sum (p : XR → XR → XR → XR → XR) (t : XR) (l m : List (ℕ × XR))
    (dyad : ℕ → ℕ → XR) (b : Bool) :
    Layer.exp_edges_layer p t l m dyad b
      = (l.map (fun a => (m.map (fun c =>
          if admissible a.1 c.1 b then p t a.2 c.2 (dyad a.1 c.1) else 0)).sum)).sum := by
  unfold Layer.exp_edges_layer
  have h : ∀ (a : ℕ × XR) (s : XR), m.foldl (fun s c =>
      if admissible a.1 c.1 b then s + p t a.2 c.2 (dyad a.1 c.1) else s) s
      = s + (m.map (fun c => if admissible a.1 c.1 b then p t a.2 c.2 (dyad a.1 c.1) else 0)).sum := by
    intro a s
    rw [← foldl_list_sum]
    congr 1
    funext s c
    by_cases h : admissible a.1 c.1 b = true
    · simp only [h, if_true]
    · simp only [h, if_false, add_zero, Bool.false_eq_true]
  simp only [h]
  rw [foldl_list_sum]
  exact zero_add _

/-- The expected number of edges of every label, sparse and spark. -/
theorem C90_label_edges (hσ : Renum n σ) (p : XR → XR → XR → XR → XR) (L : ℕ) (param : ℕ → XR)
    (x y : ℕ → List (ℕ × XR)) (dyad : ℕ → ℕ → XR) (b : Bool) :
    Layer.exp_edges_label p n L param (fun i => x (σ i)) (fun i => y (σ i))
        (fun i j => dyad (σ i) (σ j)) b
      = Layer.exp_edges_label p n L param x y dyad b := by
  unfold Layer.exp_edges_label
  refine List.map_congr_left (fun k _ => ?_)
  rw [edges_layer_sum, edges_layer_sum]
  rw [((C90_column hσ x k).map _).sum_eq]
  have h : ∀ a : ℕ × XR, ((Layer.column n (fun i => y (σ i)) k).map (fun c =>
      if admissible a.1 c.1 b then p (param k) a.2 c.2 (dyad (σ a.1) (σ c.1)) else 0)).sum
      = (((Layer.column n y k).map (fun e => (σ.symm e.1, e.2))).map (fun c =>
      if admissible a.1 c.1 b then p (param k) a.2 c.2 (dyad (σ a.1) (σ c.1)) else 0)).sum :=
    fun a => ((C90_column hσ y k).map _).sum_eq
  simp only [h, List.map_map]
  refine congrArg List.sum (List.map_congr_left (fun a _ => ?_))
  refine congrArg List.sum (List.map_congr_left (fun c _ => ?_))
  simp [admissible]

/-- The expected number of edges of every label, dense. -/
theorem C90_label_edges_dense (hσ : Renum n σ) (p : XR → XR → XR → XR → XR) (L : ℕ)
    (param : ℕ → XR) (x y : ℕ → ℕ → XR) (dyad : ℕ → ℕ → XR) (b : Bool) :
    Layer.Dense.exp_edges_label p n L param (fun i => x (σ i)) (fun i => y (σ i))
        (fun i j => dyad (σ i) (σ j)) b
      = Layer.Dense.exp_edges_label p n L param x y dyad b := by
  unfold Layer.Dense.exp_edges_label
  congr 1
  funext k
  unfold Layer.Dense.col
  by_cases hk : k < L
  · simp only [if_pos hk, Option.bind_some, Option.map_some]
    have h := C90_expected_edges hσ ⟨XR, XR, XR, XR, p, p, p, param k, fun i => x i k,
      fun j => y j k, dyad⟩ b
    exact congrArg some h
  · simp only [if_neg hk, Option.bind_none]

end

/-! ## Degrees -/

theorem triple_renum (hσ : Renum n σ) (K : Layer.Kind) (d : ℕ → ℝ≥0∞)
    (x y : ℕ → List (ℕ × ℝ≥0∞)) (b : Bool) (k i : ℕ) (hi : i < n) :
    Layer.triple K n d (fun i => x (σ i)) (fun i => y (σ i)) b k i
      = Layer.triple K n d x y b k (σ i) := by
  have hl : ∀ (z : ℕ → List (ℕ × ℝ≥0∞)) (j : ℕ), j < n →
      (Layer.column n (fun i => z (σ i)) k).lookup j = (Layer.column n z k).lookup (σ j) := by
    intro z j hj
    rw [Layer.lookup_column, Layer.lookup_column, if_pos hj, if_pos ((hσ j).2 hj)]
  have he : ∀ (z : ℕ → List (ℕ × ℝ≥0∞)) (j : ℕ), j < n →
      entry (Layer.column n (fun i => z (σ i)) k) j = entry (Layer.column n z k) (σ j) := by
    intro z j hj
    unfold entry
    rw [hl z j hj]
  have hs : ∀ (z : ℕ → List (ℕ × ℝ≥0∞)) (j : ℕ), j < n →
      Layer.stored (Layer.column n (fun i => z (σ i)) k) j
        = Layer.stored (Layer.column n z k) (σ j) := by
    intro z j hj
    unfold Layer.stored
    rw [hl z j hj]
  have hb : ∀ i j : ℕ, (j == i) = (σ j == σ i) := by
    intro i j
    by_cases h : j = i
    · simp [h]
    · simp [h]
  have key : ∀ f g : ℕ → ℝ, (∀ j < n, f j = g (σ j)) →
      ∑ j ∈ Finset.range n, f j = ∑ j ∈ Finset.range n, g j :=
    fun f g h => sum_renum hσ h
  unfold Layer.triple
  dsimp only
  refine Prod.ext ?_ (Prod.ext ?_ ?_)
  · refine congrArg₂ (· + ·) (key _ _ (fun j hj => ?_)) (key _ _ (fun j hj => ?_))
    · simp [DiGraphEnsemble.undir, he _ _ hi, he _ _ hj]
    · simp only [he _ _ hi, he _ _ hj, hs _ _ hi, hs _ _ hj, hb i j]
  · refine congrArg₂ (· + ·) (key _ _ (fun j hj => ?_)) (key _ _ (fun j hj => ?_))
    · simp [DiGraphEnsemble.masked, admissible, he _ _ hi, he _ _ hj]
    · simp only [he _ _ hi, he _ _ hj, hs _ _ hi, hs _ _ hj, hb i j]
  · refine congrArg₂ (· + ·) (key _ _ (fun j hj => ?_)) (key _ _ (fun j hj => ?_))
    · simp [DiGraphEnsemble.masked, admissible, he _ _ hi, he _ _ hj]
    · simp only [he _ _ hi, he _ _ hj, hs _ _ hi, hs _ _ hj, hb i j]

open Layer.Cached

/-- The two backends compute the same up to the order of the vertices. -/
structure SameComp (σ : Equiv.Perm ℕ) (n L : ℕ) (V : (ℕ → XR) → Prop) (C C' : Comp) : Prop where
  edges : ∀ θ, V θ → ∀ b, C'.edges θ b = C.edges θ b
  edgesLabel : ∀ θ, V θ → ∀ b, C'.edgesLabel θ b = C.edgesLabel θ b
  degrees : ∀ θ, V θ → ∀ b,
    (∃ e, C.degrees θ b = .error e ∧ C'.degrees θ b = .error e) ∨
    ∃ D D', C.degrees θ b = .ok D ∧ C'.degrees θ b = .ok D' ∧ ∀ i < n, ∀ k < L,
      D'.d i k = D.d (σ i) k ∧ D'.dOut i k = D.dOut (σ i) k ∧ D'.dIn i k = D.dIn (σ i) k

/-- Non-negative parameters, possibly infinite. -/
def Nonneg (θ : ℕ → XR) : Prop := ∃ d : ℕ → ℝ≥0∞, θ = fun k => ofENN (d k)

/-- Sparse backend. -/
theorem C90_label_sparse (hσ : Renum n σ) (K : Layer.Kind) (L : ℕ) (x y : ℕ → List (ℕ × ℝ≥0∞))
    (hx : ∀ i, RowSorted (x i)) (hy : ∀ i, RowSorted (y i)) (dyad : ℕ → ℕ → XR) :
    SameComp σ n L Nonneg
      (sparseComp K n L (fun i => rowX (x i)) (fun i => rowX (y i)) dyad)
      (sparseComp K n L (fun i => rowX (x (σ i))) (fun i => rowX (y (σ i)))
        (fun i j => dyad (σ i) (σ j))) := by
  refine ⟨fun θ _ b => ?_, fun θ _ b => ?_, ?_⟩
  · exact C90_expected_edges hσ ⟨List (ℕ × XR), List (ℕ × XR), ℕ → XR, Unit,
      fun d a b (_ : Unit) => sparsePij K d a b, fun _ _ _ _ => 0, fun _ _ _ _ => 0, θ,
      fun i => rowX (x i), fun i => rowX (y i), fun _ _ => ()⟩ b
  · exact congrArg Except.ok (C90_label_edges hσ K.link.p_ijk L θ (fun i => rowX (x i))
      (fun i => rowX (y i)) dyad b)
  · rintro θ ⟨d, rfl⟩ b
    refine .inr ⟨_, _, rfl, rfl, fun i hi k hk => ?_⟩
    have h1 := Layer.sparse_triple K n L d hx hy dyad b ((hσ i).2 hi) hk
    have h2 := Layer.sparse_triple K n L d (fun i => hx (σ i)) (fun i => hy (σ i))
      (fun i j => dyad (σ i) (σ j)) b hi hk
    dsimp only at h1 h2
    rw [triple_renum hσ K d x y b k i hi] at h2
    exact ⟨h2.1.trans h1.1.symm, h2.2.1.trans h1.2.1.symm, h2.2.2.trans h1.2.2.symm⟩

/-- Dense backend, any numbers. -/
theorem C90_label_dense (hσ : Renum n σ) (K : Layer.Kind) (L : ℕ) (x y : ℕ → ℕ → XR)
    (dyad : ℕ → ℕ → XR) :
    SameComp σ n L (fun _ => True) (denseComp K n L x y dyad)
      (denseComp K n L (fun i => x (σ i)) (fun i => y (σ i)) (fun i j => dyad (σ i) (σ j))) := by
  refine ⟨fun θ _ b => ?_, fun θ _ b => ?_, fun θ _ b => ?_⟩
  · exact C90_expected_edges hσ ⟨List XR, List XR, ℕ → XR, Unit,
      fun d a b (_ : Unit) => densePij K d a b, fun _ _ _ _ => 0, fun _ _ _ _ => 0, θ,
      fun i => (List.range L).map (x i), fun i => (List.range L).map (y i), fun _ _ => ()⟩ b
  · unfold denseComp
    dsimp only
    rw [C90_label_edges_dense hσ]
  · refine .inr ⟨_, _, rfl, rfl, fun i hi k hk => ?_⟩
    have h1 := Layer.Dense.slice_label K.link.p_ijk θ x y dyad b n L k hk
    have h2 := Layer.Dense.slice_label K.link.p_ijk θ (fun i => x (σ i)) (fun i => y (σ i))
      (fun i j => dyad (σ i) (σ j)) b n L k hk
    have h := C90_expected_degrees hσ ⟨XR, XR, XR, XR, K.link.p_ijk, K.link.p_ijk, K.link.p_ijk,
      θ k, fun i => x i k, fun j => y j k, dyad⟩ b i hi
    unfold Ens.exp_degrees at h
    dsimp only [ens] at h
    rw [← h1, ← h2] at h
    exact h

/-- Spark backend: the jobs may be cut into different blocks and combined in different orders. -/
theorem C90_label_spark (hσ : Renum n σ) (K : Layer.Kind) (L p p' : ℕ) (hp : 0 < p) (hp' : 0 < p')
    (x y : ℕ → List (ℕ × ℝ≥0∞)) (hx : ∀ i, RowSorted (x i)) (hy : ∀ i, RowSorted (y i))
    (dyad : ℕ → ℕ → XR) (edges edges' : (ℕ → XR) → Bool → XR)
    (he : ∀ d b, Verif.Spark.Folds (· + ·) 0 (Verif.Spark.edgesTasks (K.sparseEns d x y) n p b)
      (edges (fun k => ofENN (d k)) b))
    (he' : ∀ d b, Verif.Spark.Folds (· + ·) 0 (Verif.Spark.edgesTasks
      (K.sparseEns d (fun i => x (σ i)) (fun i => y (σ i))) n p' b)
      (edges' (fun k => ofENN (d k)) b)) :
    SameComp σ n L Nonneg
      (sparkComp K n L (fun i => rowX (x i)) (fun i => rowX (y i)) dyad edges)
      (sparkComp K n L (fun i => rowX (x (σ i))) (fun i => rowX (y (σ i)))
        (fun i j => dyad (σ i) (σ j)) edges') := by
  refine ⟨?_, fun θ _ b => ?_, ?_⟩
  · rintro θ ⟨d, rfl⟩ b
    have hd : ∀ x y : ℕ → List (ℕ × ℝ≥0∞), (∀ i, RowSorted (x i)) → (∀ i, RowSorted (y i)) →
        Verif.Spark.DyadFree (K.sparseEns d x y) := by
      intro x y hx hy
      cases K
      · exact (Verif.Spark.IsSpark.multiFit d x y hx hy).dyadFree
      · exact (Verif.Spark.IsSpark.multiInv d x y hx hy).dyadFree
    refine (Verif.Spark.C43_expected_num_edges (hd _ _ (fun i => hx _) (fun i => hy _)) hp' b
      (he' d b)).trans (Eq.trans ?_
      (Verif.Spark.C43_expected_num_edges (hd _ _ hx hy) hp b (he d b)).symm)
    refine Eq.trans ?_ (C90_expected_edges hσ (K.sparseEns d x y) b)
    cases K <;> rfl
  · exact congrArg Except.ok (C90_label_edges hσ K.link.p_ijk L θ (fun i => rowX (x i))
      (fun i => rowX (y i)) dyad b)
  · rintro θ ⟨d, rfl⟩ b
    have hno : noEntries K.link.p_ijk n L (fun k => ofENN (d k)) (fun i => rowX (x (σ i)))
          (fun i => rowX (y (σ i))) (fun i j => dyad (σ i) (σ j)) b
        = noEntries K.link.p_ijk n L (fun k => ofENN (d k)) (fun i => rowX (x i))
          (fun i => rowX (y i)) dyad b := by
      rw [Bool.eq_iff_iff, noEntries_iff, noEntries_iff]
      constructor
      · intro h k hk e hm
        have := h k hk (link σ e) ((link_mem_pairs hσ b e).2 hm)
        simpa [link] using this
      · intro h k hk e hm
        exact h k hk (σ e.1, σ e.2) ((link_mem_pairs hσ b _).1 (by rw [link_apply]; exact hm))
    unfold sparkComp
    dsimp only
    rw [hno]
    split
    · exact .inl ⟨_, rfl, rfl⟩
    · refine .inr ⟨_, _, rfl, rfl, fun i hi k hk => ?_⟩
      have h1 := Layer.spark_triple K n L d hx hy dyad b ((hσ i).2 hi) hk
      have h2 := Layer.spark_triple K n L d (fun i => hx (σ i)) (fun i => hy (σ i))
        (fun i j => dyad (σ i) (σ j)) b hi hk
      dsimp only at h1 h2
      rw [triple_renum hσ K d x y b k i hi] at h2
      exact ⟨h2.1.trans h1.1.symm, h2.2.1.trans h1.2.1.symm, h2.2.2.trans h1.2.2.symm⟩

/-! ## Histories -/

/-- Related matrices. -/
def Mat (σ : Equiv.Perm ℕ) (n L : ℕ) (m m' : ℕ → ℕ → XR) : Prop :=
  ∀ i < n, ∀ k < L, m' i k = m (σ i) k

/-- The same result: arrays with the vertices in the other order. -/
def SameRet (σ : Equiv.Perm ℕ) (n L : ℕ) : Except Err Ret → Except Err Ret → Prop
  | .error e, .error e' => e' = e
  | .ok .none, .ok .none => True
  | .ok (.num v), .ok (.num v') => v' = v
  | .ok (.list v), .ok (.list v') => v' = v
  | .ok (.mat m), .ok (.mat m') => Mat σ n L m m'
  | _, _ => False

/-- Related attributes. -/
inductive OptMat (σ : Equiv.Perm ℕ) (n L : ℕ) :
    Option (ℕ → ℕ → XR) → Option (ℕ → ℕ → XR) → Prop
  | none : OptMat σ n L none none
  | some {m m' : ℕ → ℕ → XR} (h : Mat σ n L m m') : OptMat σ n L (some m) (some m')

theorem OptMat.isNone {L : ℕ} {o o' : Option (ℕ → ℕ → XR)} (h : OptMat σ n L o o') :
    o'.isNone = o.isNone := by
  cases h <;> rfl

/-- Related states. -/
structure LSim (σ : Equiv.Perm ℕ) (n L : ℕ) (V : (ℕ → XR) → Prop) (s s' : St) : Prop where
  param : s'.param = s.param
  valid : ∀ θ, s.param = some θ → V θ
  selfloops : s'.selfloops = s.selfloops
  edges : s'.exp_num_edges = s.exp_num_edges
  label : s'.exp_num_edges_label = s.exp_num_edges_label
  deg : OptMat σ n L s.exp_degree_label s'.exp_degree_label
  out : OptMat σ n L s.exp_out_degree_label s'.exp_out_degree_label
  inn : OptMat σ n L s.exp_in_degree_label s'.exp_in_degree_label

/-- Related methods, the results being postprocessed by `f`. -/
def LRel (σ : Equiv.Perm ℕ) (n L : ℕ) (V : (ℕ → XR) → Prop) {α : Type} (f : α → Ret)
    (m m' : M α) : Prop :=
  ∀ s s', LSim σ n L V s s' →
    SameRet σ n L ((m s).1.map f) ((m' s').1.map f) ∧ LSim σ n L V (m s).2 (m' s').2

variable {L : ℕ} {V : (ℕ → XR) → Prop} {C C' : Comp}

theorem LRel.map {α : Type} {f : α → Ret} {m m' : M α} (h : LRel σ n L V f m m') (s s' : St)
    (hs : LSim σ n L V s s') :
    SameRet σ n L (M.map f m s).1 (M.map f m' s').1 ∧
      LSim σ n L V (M.map f m s).2 (M.map f m' s').2 := by
  obtain ⟨h1, h2⟩ := h s s' hs
  unfold M.map M.bind
  generalize m s = r at h1 h2
  generalize m' s' = r' at h1 h2
  obtain ⟨a, t⟩ := r
  obtain ⟨a', t'⟩ := r'
  cases a <;> cases a' <;> exact ⟨h1, h2⟩

theorem get_eq_rel {α : Type} (f : α → Ret) (hf : ∀ a, SameRet σ n L (.ok (f a)) (.ok (f a)))
    (o : St → Option α) (s s' : St) (h : o s' = o s) (hs : LSim σ n L V s s') :
    SameRet σ n L ((get o s).1.map f) ((get o s').1.map f) ∧
      LSim σ n L V (get o s).2 (get o s').2 := by
  unfold Layer.Cached.get
  rw [h]
  cases o s with
  | none => exact ⟨rfl, hs⟩
  | some v => exact ⟨hf v, hs⟩

theorem get_mat_rel (o : St → Option (ℕ → ℕ → XR)) (s s' : St) (h : OptMat σ n L (o s) (o s'))
    (hs : LSim σ n L V s s') :
    SameRet σ n L ((get o s).1.map .mat) ((get o s').1.map .mat) ∧
      LSim σ n L V (get o s).2 (get o s').2 := by
  unfold Layer.Cached.get
  generalize o s = a at h
  generalize o s' = a' at h
  cases h with
  | none => exact ⟨rfl, hs⟩
  | some h => exact ⟨h, hs⟩

theorem label_edges_rel (hC : SameComp σ n L V C C') (r : Bool) :
    LRel σ n L V .num (expected_num_edges C r) (expected_num_edges C' r) := by
  intro s s' h
  unfold expected_num_edges
  rw [h.param]
  cases hp : s.param with
  | none => exact ⟨rfl, h⟩
  | some θ =>
    have hv := h.valid θ hp
    dsimp only
    rw [h.edges, h.selfloops, hC.edges θ hv]
    split
    · refine get_eq_rel Ret.num (fun _ => rfl) St.exp_num_edges _ _ rfl ?_
      exact ⟨rfl, fun _ e => (by cases e; exact hv), rfl, rfl, h.label, h.deg, h.out, h.inn⟩
    · exact get_eq_rel Ret.num (fun _ => rfl) St.exp_num_edges _ _ h.edges h

theorem spark_edges_rel (hC : SameComp σ n L V C C') (r : Bool) :
    LRel σ n L V .num (Spark.expected_num_edges C r) (Spark.expected_num_edges C' r) := by
  intro s s' h
  unfold Spark.expected_num_edges
  rw [h.param]
  cases hp : s.param with
  | none => exact ⟨rfl, h⟩
  | some θ =>
    have hv := h.valid θ hp
    dsimp only
    rw [h.label, h.selfloops, hC.edges θ hv]
    split
    · refine get_eq_rel Ret.num (fun _ => rfl) St.exp_num_edges _ _ rfl ?_
      exact ⟨rfl, fun _ e => (by cases e; exact hv), rfl, rfl, rfl, h.deg, h.out, h.inn⟩
    · exact get_eq_rel Ret.num (fun _ => rfl) St.exp_num_edges _ _ h.edges h

theorem edges_label_rel (hC : SameComp σ n L V C C') (r : Bool) :
    LRel σ n L V .list (expected_num_edges_label C r) (expected_num_edges_label C' r) := by
  intro s s' h
  unfold expected_num_edges_label
  rw [h.param]
  cases hp : s.param with
  | none => exact ⟨rfl, h⟩
  | some θ =>
    have hv := h.valid θ hp
    dsimp only
    rw [h.label, h.selfloops, hC.edgesLabel θ hv]
    split
    · cases C.edgesLabel θ s.selfloops with
      | error e => exact ⟨rfl, h⟩
      | ok v =>
        refine get_eq_rel Ret.list (fun _ => rfl) St.exp_num_edges_label _ _ rfl ?_
        exact ⟨rfl, fun _ e => (by cases e; exact hv), rfl, h.edges, rfl, h.deg, h.out, h.inn⟩
    · exact get_eq_rel Ret.list (fun _ => rfl) St.exp_num_edges_label _ _ h.label h

theorem degree_label_rel (hC : SameComp σ n L V C C') (r : Bool) :
    LRel σ n L V .mat (expected_degree_by_label C r) (expected_degree_by_label C' r) := by
  intro s s' h
  unfold expected_degree_by_label
  rw [h.param]
  cases hp : s.param with
  | none => exact ⟨rfl, h⟩
  | some θ =>
    have hv := h.valid θ hp
    dsimp only
    rw [h.deg.isNone, h.selfloops]
    split
    · rcases hC.degrees θ hv s.selfloops with ⟨e, h1, h2⟩ | ⟨D, D', h1, h2, hD⟩
      · rw [h1, h2]
        exact ⟨rfl, h⟩
      · rw [h1, h2]
        have hd : OptMat σ n L (some D.d) (some D'.d) := .some (fun i hi k hk => (hD i hi k hk).1)
        refine get_mat_rel St.exp_degree_label _ _ hd ?_
        exact ⟨rfl, fun _ e => (by cases e; exact hv), rfl, h.edges, h.label, hd,
          .some (fun i hi k hk => (hD i hi k hk).2.1), .some (fun i hi k hk => (hD i hi k hk).2.2)⟩
    · exact get_mat_rel St.exp_degree_label _ _ h.deg h

theorem bind_get_rel {m m' : M (ℕ → ℕ → XR)} (o : St → Option (ℕ → ℕ → XR))
    (ho : ∀ s s', LSim σ n L V s s' → OptMat σ n L (o s) (o s')) (h : LRel σ n L V .mat m m') :
    LRel σ n L V .mat (m.bind (fun _ => get o)) (m'.bind (fun _ => get o)) := by
  intro s s' hs
  obtain ⟨h1, h2⟩ := h s s' hs
  unfold M.bind
  generalize m s = r at h1 h2
  generalize m' s' = r' at h1 h2
  obtain ⟨a, t⟩ := r
  obtain ⟨a', t'⟩ := r'
  cases a <;> cases a'
  · exact ⟨h1, h2⟩
  · exact absurd h1 (by simp [SameRet, Except.map])
  · exact absurd h1 (by simp [SameRet, Except.map])
  · exact get_mat_rel o _ _ (ho _ _ h2) h2

theorem part_rel (hC : SameComp σ n L V C C') (o : St → Option (ℕ → ℕ → XR))
    (ho : ∀ s s', LSim σ n L V s s' → OptMat σ n L (o s) (o s')) (r : Bool) :
    LRel σ n L V .mat (degree_part C o r) (degree_part C' o r) ∧
    LRel σ n L V .mat (Spark.degree_part C o r) (Spark.degree_part C' o r) := by
  constructor
  · intro s s' h
    unfold degree_part
    rw [(ho s s' h).isNone]
    split
    · exact bind_get_rel o ho (degree_label_rel hC r) s s' h
    · exact get_mat_rel o s s' (ho s s' h) h
  · intro s s' h
    unfold Spark.degree_part
    rw [(ho s s' h).isNone]
    split
    · exact bind_get_rel o ho (degree_label_rel hC false) s s' h
    · exact get_mat_rel o s s' (ho s s' h) h

theorem label_call_rel (hC : SameComp σ n L V C C') (B : Backend) (o : Op)
    (hV : ∀ θ, o = .fit θ → V θ) (s s' : St) (h : LSim σ n L V s s') :
    SameRet σ n L (call B C o s).1 (call B C' o s').1 ∧
      LSim σ n L V (call B C o s).2 (call B C' o s').2 := by
  cases o with
  | fit θ =>
    exact ⟨trivial, rfl, fun _ e => (by cases e; exact hV θ rfl), h.selfloops, h.edges, h.label,
      h.deg, h.out, h.inn⟩
  | setSelfloops b => exact ⟨trivial, h.param, h.valid, rfl, h.edges, h.label, h.deg, h.out, h.inn⟩
  | numEdges r =>
    cases B with
    | plain => exact (label_edges_rel hC r).map s s' h
    | spark => exact (spark_edges_rel hC r).map s s' h
  | numEdgesLabel r => exact (edges_label_rel hC r).map s s' h
  | degree r => exact (degree_label_rel hC r).map s s' h
  | outDegree r =>
    cases B with
    | plain => exact (part_rel hC _ (fun _ _ h => h.out) r).1.map s s' h
    | spark => exact (part_rel hC _ (fun _ _ h => h.out) r).2.map s s' h
  | inDegree r =>
    cases B with
    | plain => exact (part_rel hC _ (fun _ _ h => h.inn) r).1.map s s' h
    | spark => exact (part_rel hC _ (fun _ _ h => h.inn) r).2.map s s' h

/-- Whatever the caller does with the two multi-layer objects: every result and every exception of
the label-resolved queries is the same up to the order of the vertices. -/
theorem C90_label_history (hC : SameComp σ n L V C C') (B : Backend) (b : Bool) (ops : List Op)
    (hV : ∀ θ, Op.fit θ ∈ ops → V θ) :
    List.Forall₂ (SameRet σ n L) (run B C ops (init b)).1 (run B C' ops (init b)).1 := by
  have key : ∀ (ops : List Op) (s s' : St), (∀ θ, Op.fit θ ∈ ops → V θ) → LSim σ n L V s s' →
      List.Forall₂ (SameRet σ n L) (run B C ops s).1 (run B C' ops s').1 := by
    intro ops
    induction ops with
    | nil => intro _ _ _ _; exact .nil
    | cons o ops ih =>
      intro s s' hv h
      obtain ⟨h1, h2⟩ := label_call_rel hC B o (fun θ e => hv θ (by simp [e])) s s' h
      exact .cons h1 (ih _ _ (fun θ ht => hv θ (by simp [ht])) h2)
  exact key ops _ _ hV ⟨rfl, fun _ e => (by cases e), rfl, rfl, rfl, .none, .none, .none⟩

/-- The hypotheses are met: two vertices in one layer, listed in another order. -/
example : SameComp (Equiv.swap 0 1) 2 1 Nonneg
    (sparseComp .fit 2 1 (fun i => rowX (wOut i)) (fun i => rowX (wIn i)) (fun _ _ => 0))
    (sparseComp .fit 2 1 (fun i => rowX (wOut (Equiv.swap 0 1 i)))
      (fun i => rowX (wIn (Equiv.swap 0 1 i))) (fun _ _ => 0)) :=
  C90_label_sparse swap_renum .fit 1 wOut wIn wOut_sorted wIn_sorted (fun _ _ => 0)

end Relabel

end Verif
