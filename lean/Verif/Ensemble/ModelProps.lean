import Verif.Ensemble.QueryProps
import Verif.Ensemble.SampleProps

/-! # The ensemble properties with the link probabilities written out

`Ens.Is E q` says that `E` is one of the ensembles of the library and that `q` is the textbook
formula of its link probabilities.  The theorems of this file are C09–C17 for these ensembles, with
no reference to the probability functions of the code. -/

namespace Verif

open XR Spec Query DiGraphEnsemble
open scoped ENNReal
open MeasureTheory

namespace Ens

/-- The ensembles of the library with their link probabilities. -/
inductive Is : Ens → (ℕ × ℕ → ℝ) → Prop
  | sparseFit (d x y z) : Is (sparseFit d x y z)
      (fun e => fitProb (d * x e.1 * y e.2 * z e.1 e.2))
  | sparseInv (d x y z) : Is (sparseInv d x y z)
      (fun e => invProb (d * x e.1 * y e.2 * z e.1 e.2))
  | denseFit (d x y w) : Is (denseFit d x y w) (fun e => fitProb (d * x e.1 * y e.2))
  | denseInv (d x y w) : Is (denseInv d x y w) (fun e => invProb (d * x e.1 * y e.2))
  | sparkInv (d x y w) : Is (sparkInv d x y w) (fun e => invProb (d * x e.1 * y e.2))
  | sparseMultiFit (L d x y) (hx : ∀ i, RowSorted (x i)) (hy : ∀ i, RowSorted (y i))
      (hxL : ∀ i, ∀ e ∈ x i, e.1 < L) (hyL : ∀ i, ∀ e ∈ y i, e.1 < L) :
      Is (sparseMultiFit d x y) (fun e => 1 - ∏ k ∈ Finset.range L,
        (1 - fitProb (d k * entry (x e.1) k * entry (y e.2) k)))
  | sparseMultiInv (L d x y) (hx : ∀ i, RowSorted (x i)) (hy : ∀ i, RowSorted (y i))
      (hxL : ∀ i, ∀ e ∈ x i, e.1 < L) (hyL : ∀ i, ∀ e ∈ y i, e.1 < L) :
      Is (sparseMultiInv d x y) (fun e => 1 - ∏ k ∈ Finset.range L,
        (1 - invProb (d k * entry (x e.1) k * entry (y e.2) k)))
  | denseMultiFit (L d x y) : Is (denseMultiFit L d x y) (fun e => 1 - ∏ k ∈ Finset.range L,
        (1 - fitProb (d k * x e.1 k * y e.2 k)))
  | denseMultiInv (L d x y) : Is (denseMultiInv L d x y) (fun e => 1 - ∏ k ∈ Finset.range L,
        (1 - invProb (d k * x e.1 k * y e.2 k)))

theorem Is.isModel {E : Ens} {q : ℕ × ℕ → ℝ} (h : E.Is q) : E.IsModel := by
  cases h with
  | sparseFit d x y z => exact .sparseFit _ _ _ _
  | sparseInv d x y z => exact .sparseInv _ _ _ _
  | denseFit d x y w => exact .denseFit _ _ _ _
  | denseInv d x y w => exact .denseInv _ _ _ _
  | sparkInv d x y w => exact .sparkInv _ _ _ _
  | sparseMultiFit L d x y hx hy _ _ => exact .sparseMultiFit _ _ _ hx hy
  | sparseMultiInv L d x y hx hy _ _ => exact .sparseMultiInv _ _ _ hx hy
  | denseMultiFit L d x y => exact .denseMultiFit _ _ _ _
  | denseMultiInv L d x y => exact .denseMultiInv _ _ _ _

theorem Is.coherent {E : Ens} {q : ℕ × ℕ → ℝ} (h : E.Is q) : E.Coherent :=
  isModel_coherent h.isModel

theorem Is.p_eq {E : Ens} {q : ℕ × ℕ → ℝ} (h : E.Is q) (i j : ℕ) : E.p i j = fin (q (i, j)) := by
  cases h with
  | sparseFit d x y z => exact sparse_fit_p_ij ..
  | sparseInv d x y z => exact sparse_inv_p_ij ..
  | denseFit d x y w => exact dense_fit_p_ij _ _ _ (w i j)
  | denseInv d x y w => exact dense_inv_p_ij _ _ _ (w i j)
  | sparkInv d x y w => exact dense_inv_p_ij _ _ _ (w i j)
  | sparseMultiFit L d x y hx hy hxL hyL =>
    exact sparse_multiFit_p_ij d (hx i) (hy j) (hxL i) (hyL j)
  | sparseMultiInv L d x y hx hy hxL hyL =>
    exact sparse_multiInv_p_ij d (hx i) (hy j) (hxL i) (hyL j)
  | denseMultiFit L d x y => exact dense_multiFit_p_ij L d (x i) (y j)
  | denseMultiInv L d x y => exact dense_multiInv_p_ij L d (x i) (y j)

theorem Is.prob_eq {E : Ens} {q : ℕ × ℕ → ℝ} (h : E.Is q) : E.prob = q := by
  funext e
  have := h.p_eq e.1 e.2
  rw [h.coherent.p_eq, fin_inj] at this
  exact this

end Ens

open Ens

variable {E : Ens} {q : ℕ × ℕ → ℝ}

theorem C09_formula (hE : E.Is q) (n : ℕ) (selfloops : Bool) :
    E.exp_edges n selfloops
      = fin (Law.mean (Law.pairs n selfloops) q (fun G => (G.card : ℝ))) := by
  rw [C09_expected_num_edges hE.coherent, hE.prob_eq]

theorem C10_formula (hE : E.Is q) (n : ℕ) (selfloops : Bool) (i : ℕ) (hi : i < n) :
    let D := E.exp_degrees n selfloops
    let M := Law.mean (Law.pairs n selfloops) q
    D.exp_d_out i = fin (M (fun G => (Law.outDegree G i : ℝ))) ∧
    D.exp_d_in i = fin (M (fun G => (Law.inDegree G i : ℝ))) ∧
    D.exp_d i = fin (M (fun G => (Law.degree n G i : ℝ))) := by
  have h := C10_expected_degrees hE.coherent n selfloops i hi
  rw [hE.prob_eq] at h
  exact h

theorem C11_models (hE : E.IsModel) (n : ℕ) (selfloops : Bool) :
    ∃ (dOut dIn d : ℕ → ℝ) (L : ℝ),
      (∀ i < n, (E.exp_degrees n selfloops).exp_d_out i = fin (dOut i)) ∧
      (∀ i < n, (E.exp_degrees n selfloops).exp_d_in i = fin (dIn i)) ∧
      (∀ i < n, (E.exp_degrees n selfloops).exp_d i = fin (d i)) ∧
      E.exp_edges n selfloops = fin L ∧
      ∑ i ∈ Finset.range n, dOut i = L ∧ ∑ i ∈ Finset.range n, dIn i = L ∧
      (∀ i < n, max (dOut i) (dIn i) ≤ d i ∧ d i ≤ dOut i + dIn i) :=
  C11_handshake (isModel_coherent hE) n selfloops

theorem C12_formula (hE : E.Is q) (n : ℕ) (selfloops : Bool) (G : Finset (ℕ × ℕ)) :
    E.likelihood n (linkOf G) selfloops = elog (Law.prob (Law.pairs n selfloops) q G) ∧
    expLike (E.likelihood n (linkOf G) selfloops) = Law.prob (Law.pairs n selfloops) q G := by
  have h := C12_log_likelihood hE.coherent n selfloops G
  rw [hE.prob_eq] at h
  exact h

theorem C13_models (hE : E.IsModel) (n : ℕ) (selfloops : Bool) (G : Finset (ℕ × ℕ)) :
    E.likelihood n (linkOf G) selfloops ≠ pinf ∧
    E.likelihood n (linkOf G) selfloops ≠ nan ∧
    (E.likelihood n (linkOf G) selfloops = ninf ↔
      ∃ i < n, ∃ j < n, (i ≠ j ∨ selfloops = true) ∧
        (((i, j) ∈ G ∧ E.p i j = 0) ∨ ((i, j) ∉ G ∧ E.p i j = 1))) :=
  C13_impossible (isModel_coherent hE) n selfloops G

/-- A graph with an impossible link, and one that lacks a certain link. -/
example (n : ℕ) (hn : 1 < n) :
    (denseFit 1 (fun i => if i = 0 then 0 else ⊤) (fun _ => 1) (fun _ _ => 0)).likelihood n
        (linkOf {(0, 1)}) false = ninf ∧
    (denseFit 1 (fun i => if i = 0 then 0 else ⊤) (fun _ => 1) (fun _ _ => 0)).likelihood n
        (linkOf ∅) false = ninf := by
  have hp := fun i j => (Is.denseFit 1 (fun i => if i = 0 then 0 else ⊤) (fun _ => 1)
    (fun _ _ => 0)).p_eq i j
  constructor
  · rw [(C13_models (.denseFit _ _ _ _) n false _).2.2]
    refine ⟨0, by omega, 1, hn, Or.inl (by norm_num), Or.inl ⟨by simp, ?_⟩⟩
    rw [hp]
    simp [fitProb]
    rfl
  · rw [(C13_models (.denseFit _ _ _ _) n false _).2.2]
    refine ⟨1, hn, 0, by omega, Or.inl (by norm_num), Or.inr ⟨by simp, ?_⟩⟩
    rw [hp]
    simp [fitProb]
    rfl

theorem C14_formula (hE : E.Is q) (n : ℕ) (selfloops : Bool)
    {Ω : Type} [MeasurableSpace Ω] (P : Measure Ω) (U : ℕ → Ω → ℝ) (hU : IsUniform P U)
    (G : Finset (ℕ × ℕ)) (hG : G ⊆ Law.pairs n selfloops) :
    P {ω | (E.binary_sample_stream n selfloops (fun k => U k ω)).toFinset = G}
        = ENNReal.ofReal (Law.prob (Law.pairs n selfloops) q G) ∧
    P {ω | (E.binary_sample_stream n selfloops (fun k => U k ω)).toFinset = G}
        = ENNReal.ofReal (expLike (E.likelihood n (linkOf G) selfloops)) := by
  have h := C14_sample_law hE.coherent n selfloops P U hU G hG
  rw [hE.prob_eq] at h
  exact h

theorem C15_formula (hE : E.Is q) (n : ℕ) (selfloops : Bool) (u : ℕ → ℝ)
    (hu : ∀ k, 0 ≤ u k ∧ u k < 1) :
    let L := E.binary_sample_stream n selfloops u
    L.Nodup ∧
    (∀ e ∈ L, e.1 < n ∧ e.2 < n ∧ (e.1 ≠ e.2 ∨ selfloops = true) ∧ q e ≠ 0) ∧
    (∀ i < n, ∀ j < n, (i ≠ j ∨ selfloops = true) → q (i, j) = 1 → (i, j) ∈ L) := by
  have h := C15_valid_samples hE.coherent n selfloops u hu
  refine ⟨h.1, fun e he => ?_, fun i hi j hj ha hq => ?_⟩
  · obtain ⟨h1, h2, h3, h4⟩ := h.2.1 e he
    refine ⟨h1, h2, h3, fun h0 => h4 ?_⟩
    rw [hE.p_eq, show (e.1, e.2) = e from rfl, h0]; rfl
  · refine h.2.2 i hi j hj ha ?_
    rw [hE.p_eq, hq]; rfl

theorem C16_formula (hE : E.Is q) (n : ℕ) (selfloops : Bool)
    (s_out s_in : ℕ → ℝ) (u e : ℕ → ℕ → ℝ) (hu : ∀ i j, 0 ≤ u i j) (L : List ((ℕ × ℕ) × XR))
    (h : E.cremb_sample n s_out s_in selfloops u e = .ok L) :
    L.map Prod.fst = E.binary_sample n selfloops u ∧
    ∀ l ∈ L, 0 < q l.1 ∧ l.2 = fin (s_out l.1.1 * s_in l.1.2 /
      ((∑ i ∈ Finset.range n, s_out i) * q l.1) * e l.1.1 l.1.2) := by
  have h2 := C16_links_and_weights hE.coherent n selfloops s_out s_in u e hu L h
  rw [hE.prob_eq] at h2
  exact h2

/-- Mean strengths, for positive link probabilities. -/
theorem C16_mean_formula (hE : E.Is q) (n : ℕ) (s_out s_in : ℕ → ℝ)
    (hpos : ∀ i < n, ∀ j < n, q (i, j) ≠ 0)
    (hadm : (∑ i ∈ Finset.range n, s_out i) ≠ 0 ∧
      |(∑ i ∈ Finset.range n, s_out i) - ∑ i ∈ Finset.range n, s_in i|
        < 1e-6 * |∑ i ∈ Finset.range n, s_out i|)
    {Ω : Type} [MeasurableSpace Ω] (P : Measure Ω) (U X : ℕ → ℕ → Ω → ℝ)
    (hN : IsCrembNoise P U X) :
    ∃ L : Ω → List ((ℕ × ℕ) × XR),
      (∀ ω, E.cremb_sample n s_out s_in true (fun i j => U i j ω) (fun i j => X i j ω)
        = .ok (L ω)) ∧
      (∀ i < n, ∫ ω, sampledOut (L ω) i ∂P
        = s_out i * ((∑ j ∈ Finset.range n, s_in j) / ∑ j ∈ Finset.range n, s_out j)) ∧
      (∀ j < n, ∫ ω, sampledIn (L ω) j ∂P = s_in j) :=
  C16_mean_strengths hE.coherent n s_out s_in (fun i hi j hj h0 => hpos i hi j hj (by
    rw [hE.p_eq, zero_def, fin_inj] at h0; exact h0)) hadm P U X hN

theorem C17_formula (jUndef n : ℕ) (θ : E.δ) (hE : (at_ E θ).Is q)
    (hd : DyadConst E) (x : ℕ → ℝ) (ndir : Dir) (hdir : ndir.Known) (sl : Option Bool)
    (dr : Bool) (s : St E.δ) (hθ : s.param = some θ)
    (h : DegFresh E n θ s ∨ dr = true ∨ sl.getD s.selfloops ≠ s.selfloops) :
    let P := linkProb n (sl.getD s.selfloops) q ndir
    ∃ v, (expected_av_nn_property jUndef E n n (fun i => fin (x i)) ndir sl dr s).1 = .ok v ∧
      ∀ i < n,
        v i = fin ((∑ j ∈ Finset.range n, P i j * x j) / ∑ j ∈ Finset.range n, P i j) := by
  have h2 := C17_weighted_mean jUndef n θ hE.coherent hd x ndir hdir sl dr s hθ h
  rw [hE.prob_eq] at h2
  exact h2

/-- A dense fitness ensemble of two layers. -/
example : (denseMultiFit 2 (fun _ => 1) (fun _ _ => 1) (fun _ _ => 1)).Is
    (fun _ => 1 - ∏ _k ∈ Finset.range 2, (1 - fitProb (1 * 1 * 1))) :=
  .denseMultiFit 2 (fun _ => 1) (fun _ _ => 1) (fun _ _ => 1)

end Verif
