import Verif.Ensemble.Lemmas

/-!
# The ensembles defined in the code

`Ens` bundles the arguments that the methods of `DiGraphEnsemble` pass to the loops
(`self.p_ij, self.param, self.prop_out, self.prop_in, self.prop_dyad`).  `Ens.IsModel` lists the
ensembles of the library that use these loops; `isModel_coherent` shows that all of them supply
link probabilities in `[0, 1]` with matching logarithms.
-/

namespace Verif

open scoped ENNReal
open XR Spec

/-- What an ensemble passes to the loops over pairs. -/
structure Ens : Type 1 where
  (α β δ ζ : Type)
  p_ij : δ → α → β → ζ → XR
  logp : δ → α → β → ζ → XR
  log1mp : δ → α → β → ζ → XR
  param : δ
  prop_out : ℕ → α
  prop_in : ℕ → β
  prop_dyad : ℕ → ℕ → ζ

namespace Ens

/-- `self.p_ij(self.param, prop_out[i], prop_in[j], prop_dyad(i, j))` -/
def p (E : Ens) (i j : ℕ) : XR := E.p_ij E.param (E.prop_out i) (E.prop_in j) (E.prop_dyad i j)
/-- `self.logp(...)` -/
def lp (E : Ens) (i j : ℕ) : XR := E.logp E.param (E.prop_out i) (E.prop_in j) (E.prop_dyad i j)
/-- `self.log1mp(...)` -/
def l1p (E : Ens) (i j : ℕ) : XR :=
  E.log1mp E.param (E.prop_out i) (E.prop_in j) (E.prop_dyad i j)

/-- The link probability as a real number. -/
def prob (E : Ens) (e : ℕ × ℕ) : ℝ := (E.p e.1 e.2).toReal

/-- Link probabilities lie in `[0, 1]` and the log functions are their logarithms. -/
def Coherent (E : Ens) : Prop := ∀ i j, LogsAgree (E.p i j) (E.lp i j) (E.l1p i j)

/-- Call of `exp_edges` (`/repo/src/graph_ensembles/sparse/models/ensembles.py:115-122`). -/
noncomputable def exp_edges (E : Ens) (n : ℕ) (selfloops : Bool) : XR :=
  DiGraphEnsemble.exp_edges E.p_ij E.param n E.prop_out E.prop_in E.prop_dyad selfloops

/-- Call of `exp_degrees` (`/repo/src/graph_ensembles/sparse/models/ensembles.py:132-140`). -/
noncomputable def exp_degrees (E : Ens) (n : ℕ) (selfloops : Bool) : DiGraphEnsemble.Degrees :=
  DiGraphEnsemble.exp_degrees E.p_ij E.param n E.prop_out E.prop_in E.prop_dyad selfloops

/-- Call of `_likelihood` (`/repo/src/graph_ensembles/sparse/models/ensembles.py:315-325`). -/
noncomputable def likelihood (E : Ens) (n : ℕ) (link : ℕ → ℕ → Bool) (selfloops : Bool) : XR :=
  DiGraphEnsemble.likelihood E.logp E.log1mp E.param n E.prop_out E.prop_in E.prop_dyad link
    selfloops

/-- Call of `_binary_sample` (`/repo/src/graph_ensembles/sparse/models/ensembles.py:371-379`). -/
noncomputable def binary_sample (E : Ens) (n : ℕ) (selfloops : Bool) (u : ℕ → ℕ → ℝ) :
    List (ℕ × ℕ) :=
  DiGraphEnsemble.binary_sample E.p_ij E.param n E.prop_out E.prop_in E.prop_dyad selfloops u

/-- The same call reading the generator as a stream. -/
noncomputable def binary_sample_stream (E : Ens) (n : ℕ) (selfloops : Bool) (u : ℕ → ℝ) :
    List (ℕ × ℕ) :=
  (DiGraphEnsemble.binary_sample_stream E.p_ij E.param n E.prop_out E.prop_in E.prop_dyad
    selfloops u).2

/-- Call of `_cremb_sample` (`/repo/src/graph_ensembles/sparse/models/ensembles.py:385-394`). -/
noncomputable def cremb_sample (E : Ens) (n : ℕ) (s_out s_in : ℕ → ℝ) (selfloops : Bool)
    (u e : ℕ → ℕ → ℝ) : Except DiGraphEnsemble.CrembErr (List ((ℕ × ℕ) × XR)) :=
  DiGraphEnsemble.cremb_sample E.p_ij E.param n E.prop_out E.prop_in E.prop_dyad s_out s_in
    selfloops u e

/-- Values of an array of non-negative, possibly infinite floats. -/
noncomputable def arr (x : ℕ → ℝ≥0∞) (i : ℕ) : XR := ofENN (x i)

/-- Sparse single-layer `FitnessModel`; `z` is an arbitrary dyadic property (default `1.0`). -/
noncomputable def sparseFit (d : ℝ≥0∞) (x y : ℕ → ℝ≥0∞) (z : ℕ → ℕ → ℝ≥0∞) : Ens :=
  ⟨XR, XR, XR, XR, Sparse.FitnessModel.p_ij, Sparse.FitnessModel.logp,
    Sparse.FitnessModel.log1mp, ofENN d, arr x, arr y, fun i => arr (z i)⟩

/-- Sparse single-layer `ScaleInvariantModel`. -/
noncomputable def sparseInv (d : ℝ≥0∞) (x y : ℕ → ℝ≥0∞) (z : ℕ → ℕ → ℝ≥0∞) : Ens :=
  ⟨XR, XR, XR, XR, Sparse.ScaleInvariantModel.p_ij, Sparse.ScaleInvariantModel.logp,
    Sparse.ScaleInvariantModel.log1mp, ofENN d, arr x, arr y, fun i => arr (z i)⟩

/-- Dense (and spark) `FitnessModel`; the dyadic argument `w` is ignored by the code. -/
noncomputable def denseFit (d : ℝ≥0∞) (x y : ℕ → ℝ≥0∞) (w : ℕ → ℕ → XR) : Ens :=
  ⟨XR, XR, XR, XR, Dense.FitnessModel.p_ij, Dense.FitnessModel.logp,
    Dense.FitnessModel.log1mp, ofENN d, arr x, arr y, w⟩

/-- Dense `ScaleInvariantModel`. -/
noncomputable def denseInv (d : ℝ≥0∞) (x y : ℕ → ℝ≥0∞) (w : ℕ → ℕ → XR) : Ens :=
  ⟨XR, XR, XR, XR, Dense.ScaleInvariantModel.p_ij, Dense.ScaleInvariantModel.logp,
    Dense.ScaleInvariantModel.log1mp, ofENN d, arr x, arr y, w⟩

/-- Spark `ScaleInvariantModel`. -/
noncomputable def sparkInv (d : ℝ≥0∞) (x y : ℕ → ℝ≥0∞) (w : ℕ → ℕ → XR) : Ens :=
  ⟨XR, XR, XR, XR, Dense.ScaleInvariantModel.p_ij, Dense.ScaleInvariantModel.logp,
    Spark.ScaleInvariantModel.log1mp, ofENN d, arr x, arr y, w⟩

/-- Sparse `MultiFitnessModel`, all layers together (`prop_dyad` ignored by the code). -/
noncomputable def sparseMultiFit (d : ℕ → ℝ≥0∞) (x y : ℕ → List (ℕ × ℝ≥0∞)) : Ens :=
  ⟨List (ℕ × XR), List (ℕ × XR), ℕ → XR, Unit,
    fun d x y _ => Sparse.MultiFitnessModel.p_ij d x y,
    fun d x y _ => Sparse.MultiFitnessModel.logp d x y,
    fun d x y _ => Sparse.MultiFitnessModel.log1mp d x y, arr d, fun i => rowX (x i),
    fun j => rowX (y j), fun _ _ => ()⟩

/-- Sparse `MultiInvariantModel`, all layers together. -/
noncomputable def sparseMultiInv (d : ℕ → ℝ≥0∞) (x y : ℕ → List (ℕ × ℝ≥0∞)) : Ens :=
  ⟨List (ℕ × XR), List (ℕ × XR), ℕ → XR, Unit,
    fun d x y _ => Sparse.MultiInvariantModel.p_ij d x y,
    fun d x y _ => Sparse.MultiInvariantModel.logp d x y,
    fun d x y _ => Sparse.MultiInvariantModel.log1mp d x y, arr d, fun i => rowX (x i),
    fun j => rowX (y j), fun _ _ => ()⟩

/-- Dense `MultiFitnessModel`, all layers together; `L` labels. -/
noncomputable def denseMultiFit (L : ℕ) (d : ℕ → ℝ≥0∞) (x y : ℕ → ℕ → ℝ≥0∞) : Ens :=
  ⟨List XR, List XR, ℕ → XR, Unit,
    fun d x y _ => Dense.MultiFitnessModel.p_ij d x y,
    fun d x y _ => Dense.MultiFitnessModel.logp d x y,
    fun d x y _ => Dense.MultiFitnessModel.log1mp d x y, arr d, fun i => denseX L (x i),
    fun j => denseX L (y j), fun _ _ => ()⟩

/-- Dense `MultiInvariantModel`, all layers together; `L` labels. -/
noncomputable def denseMultiInv (L : ℕ) (d : ℕ → ℝ≥0∞) (x y : ℕ → ℕ → ℝ≥0∞) : Ens :=
  ⟨List XR, List XR, ℕ → XR, Unit,
    fun d x y _ => Dense.MultiInvariantModel.p_ij d x y,
    fun d x y _ => Dense.MultiInvariantModel.logp d x y,
    fun d x y _ => Dense.MultiInvariantModel.log1mp d x y, arr d, fun i => denseX L (x i),
    fun j => denseX L (y j), fun _ _ => ()⟩

/-- The ensembles of the library (one layer of a multi-layer model behaves as `denseFit` /
`denseInv`, see `MultiFitnessModel.p_ijk`). -/
inductive IsModel : Ens → Prop
  | sparseFit (d x y z) : IsModel (sparseFit d x y z)
  | sparseInv (d x y z) : IsModel (sparseInv d x y z)
  | denseFit (d x y w) : IsModel (denseFit d x y w)
  | denseInv (d x y w) : IsModel (denseInv d x y w)
  | sparkInv (d x y w) : IsModel (sparkInv d x y w)
  | sparseMultiFit (d x y) (hx : ∀ i, RowSorted (x i)) (hy : ∀ i, RowSorted (y i)) :
      IsModel (sparseMultiFit d x y)
  | sparseMultiInv (d x y) (hx : ∀ i, RowSorted (x i)) (hy : ∀ i, RowSorted (y i)) :
      IsModel (sparseMultiInv d x y)
  | denseMultiFit (L d x y) : IsModel (denseMultiFit L d x y)
  | denseMultiInv (L d x y) : IsModel (denseMultiInv L d x y)

theorem ofENN_nonneg (x : ℝ≥0∞) : (ofENN x).Nonneg := (nonneg_iff_exists _).2 ⟨x, rfl⟩

theorem isModel_coherent {E : Ens} (h : E.IsModel) : E.Coherent := by
  intro i j
  cases h with
  | sparseFit d x y z =>
    exact (C04_single (ofENN d) (ofENN (x i)) (ofENN (y j)) (ofENN (z i j)) 0 (ofENN_nonneg _)
      (ofENN_nonneg _) (ofENN_nonneg _) (ofENN_nonneg _)).1
  | sparseInv d x y z =>
    exact (C04_single (ofENN d) (ofENN (x i)) (ofENN (y j)) (ofENN (z i j)) 0 (ofENN_nonneg _)
      (ofENN_nonneg _) (ofENN_nonneg _) (ofENN_nonneg _)).2.1
  | denseFit d x y w =>
    exact (C04_single (ofENN d) (ofENN (x i)) (ofENN (y j)) (ofENN 0) (w i j) (ofENN_nonneg _)
      (ofENN_nonneg _) (ofENN_nonneg _) (ofENN_nonneg _)).2.2.1
  | denseInv d x y w =>
    exact (C04_single (ofENN d) (ofENN (x i)) (ofENN (y j)) (ofENN 0) (w i j) (ofENN_nonneg _)
      (ofENN_nonneg _) (ofENN_nonneg _) (ofENN_nonneg _)).2.2.2.1
  | sparkInv d x y w =>
    exact (C04_single (ofENN d) (ofENN (x i)) (ofENN (y j)) (ofENN 0) (w i j) (ofENN_nonneg _)
      (ofENN_nonneg _) (ofENN_nonneg _) (ofENN_nonneg _)).2.2.2.2.1
  | sparseMultiFit d x y hx hy => exact (C04_multi_sparse d (hx i) (hy j)).1
  | sparseMultiInv d x y hx hy => exact (C04_multi_sparse d (hx i) (hy j)).2
  | denseMultiFit L d x y => exact (C04_multi_dense L d (x i) (y j)).1
  | denseMultiInv L d x y => exact (C04_multi_dense L d (x i) (y j)).2

theorem Coherent.p_eq {E : Ens} (h : E.Coherent) (i j : ℕ) : E.p i j = fin (E.prob (i, j)) := by
  obtain ⟨r, _, _, hp, _⟩ := h i j
  simp [prob, hp]

theorem Coherent.prob_mem {E : Ens} (h : E.Coherent) (e : ℕ × ℕ) :
    0 ≤ E.prob e ∧ E.prob e ≤ 1 := by
  obtain ⟨r, h0, h1, hp, _⟩ := h e.1 e.2
  simp [prob, hp, h0, h1]

theorem Coherent.lp_eq {E : Ens} (h : E.Coherent) (i j : ℕ) :
    E.lp i j = elog (E.prob (i, j)) := by
  obtain ⟨r, _, _, hp, hl, _⟩ := h i j
  simp [prob, hp, hl]

theorem Coherent.l1p_eq {E : Ens} (h : E.Coherent) (i j : ℕ) :
    E.l1p i j = elog (1 - E.prob (i, j)) := by
  obtain ⟨r, _, _, hp, _, hl⟩ := h i j
  simp [prob, hp, hl]

end Ens

end Verif
