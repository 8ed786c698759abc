import Verif.Ensemble.WeightedLemmas
import Verif.Ensemble.ModelProps
import Mathlib.Analysis.SpecialFunctions.Integrals.Basic
import Mathlib.Probability.StrongLaw

/-!
# C97: weighted samples from one stream of random numbers

`WCall.run c u m` (`Verif/Ensemble/Weighted.lean`): the first `m` of a sequence of calls of `sample`,
with or without weights, on one generator.  `expLaw μ`: law of an exponential variate of mean `μ`
(`expLaw_eq`).
-/

namespace Verif

open XR MeasureTheory ProbabilityTheory Filter Topology RStream
open scoped ENNReal

/-- Law of an entry of a sampled graph: a link with probability `p`, whose weight has law `ν`. -/
noncomputable def linkLaw (p : ℝ) (ν : Measure ℝ) : Measure (Bool × ℝ) :=
  ENNReal.ofReal p • ν.map (Prod.mk true) + ENNReal.ofReal (1 - p) • Measure.dirac (false, 0)

/-- The entry of a sampled graph: whether the pair is linked, and the weight of the link. -/
noncomputable def entryOf (L : List ((ℕ × ℕ) × XR)) (e : ℕ × ℕ) : Bool × ℝ :=
  match L.lookup e with
  | some w => (true, w.toReal)
  | none => (false, 0)

/-- Law of the weight of a link that has probability `p`: the value one for unweighted samples,
otherwise exponential with mean `s_out i * s_in j / (s_tot * p)`. -/
noncomputable def WCall.weightLaw (c : WCall) (p : ℝ) (e : ℕ × ℕ) : Measure ℝ :=
  match c.weights with
  | .none => Measure.dirac 1
  | .cremb s_out s_in => expLaw (s_out e.1 * s_in e.2 / ((∑ i ∈ Finset.range c.n, s_out i) * p))

theorem measurable_true : Measurable (Prod.mk true : ℝ → Bool × ℝ) := measurable_prodMk_left

theorem linkLaw_apply (p : ℝ) (ν : Measure ℝ) {B : Set (Bool × ℝ)} (hB : MeasurableSet B) :
    linkLaw p ν B = ENNReal.ofReal p * ν (Prod.mk true ⁻¹' B)
      + ENNReal.ofReal (1 - p) * B.indicator 1 (false, 0) := by
  unfold linkLaw
  rw [Measure.add_apply, Measure.smul_apply, Measure.smul_apply, Measure.map_apply measurable_true hB,
    Measure.dirac_apply' _ hB]
  rfl

instance (c : WCall) (p : ℝ) (e : ℕ × ℕ) : IsProbabilityMeasure (c.weightLaw p e) := by
  unfold WCall.weightLaw
  cases c.weights <;> infer_instance

theorem linkLaw_univ {p : ℝ} (h0 : 0 ≤ p) (h1 : p ≤ 1) (ν : Measure ℝ) [IsProbabilityMeasure ν] :
    linkLaw p ν Set.univ = 1 := by
  rw [linkLaw_apply _ _ MeasurableSet.univ, Set.preimage_univ, measure_univ, mul_one,
    Set.indicator_univ, Pi.one_apply, mul_one, ← ENNReal.ofReal_add h0 (by linarith)]
  simp

namespace WCall

private noncomputable def real (r : Bool × XR) : Bool × ℝ :=
  if r.1 then (true, r.2.toReal) else (false, 0)

/-- The results for a pair, with the weight as a real number. -/
private noncomputable def pairR (c : WCall) (e : ℕ × ℕ) (u : ℕ → ℝ) : ℕ × (Bool × ℝ) :=
  ((c.pair e u).1, real (c.pair e u).2)

theorem split_law {q : ℝ} (h0 : 0 ≤ q) (h1 : q ≤ 1) {D D' : Set (ℕ → ℝ)} (hD : MeasurableSet D)
    (hD' : MeasurableSet D') :
    MeasurableSet {u : ℕ → ℝ | if u 0 < q then drop 1 u ∈ D else drop 1 u ∈ D'} ∧
    law {u | if u 0 < q then drop 1 u ∈ D else drop 1 u ∈ D'}
      = ENNReal.ofReal q * law D + ENNReal.ofReal (1 - q) * law D' := by
  obtain ⟨m1, e1⟩ := law_first (A := Set.Iio q) measurableSet_Iio hD
  obtain ⟨m2, e2⟩ := law_first (A := Set.Ici q) measurableSet_Ici hD'
  have hs : {u : ℕ → ℝ | if u 0 < q then drop 1 u ∈ D else drop 1 u ∈ D'}
      = {u | u 0 ∈ Set.Iio q ∧ drop 1 u ∈ D} ∪ {u | u 0 ∈ Set.Ici q ∧ drop 1 u ∈ D'} := by
    ext u
    simp only [Set.mem_ofPred_eq, Set.mem_union, Set.mem_Iio, Set.mem_Ici]
    by_cases h : u 0 < q
    · simp [h, not_le.2 h]
    · simp [h, not_lt.1 h]
  rw [hs]
  refine ⟨m1.union m2, ?_⟩
  rw [measure_union _ m2, e1, e2, unif_Iio h1, unif_Ici h0]
  refine Set.disjoint_left.2 fun u h h' => ?_
  have h1 : u 0 < q := h.1
  exact absurd h1 (not_lt.2 h'.1)

private theorem fresh_pair (c : WCall) (e : ℕ × ℕ) {q : ℝ} (hq : c.ens.p e.1 e.2 = fin q) (h0 : 0 ≤ q)
    (h1 : q ≤ 1) : Fresh (c.pairR e) (linkLaw q (c.weightLaw q e)) := by
  intro B hB C hC
  have hD' : MeasurableSet {v : ℕ → ℝ | (false, (0 : ℝ)) ∈ B ∧ v ∈ C} := by
    by_cases h : (false, (0 : ℝ)) ∈ B
    · simpa [h] using hC
    · simp [h]
  have hl' : law {v : ℕ → ℝ | (false, (0 : ℝ)) ∈ B ∧ v ∈ C} = B.indicator 1 (false, (0 : ℝ)) * law C := by
    by_cases h : (false, (0 : ℝ)) ∈ B <;> simp [h]
  rw [linkLaw_apply _ _ hB, add_mul, mul_assoc, mul_assoc, ← hl']
  cases hw : c.weights with
  | none =>
    have hD : MeasurableSet {v : ℕ → ℝ | (true, (1 : ℝ)) ∈ B ∧ v ∈ C} := by
      by_cases h : (true, (1 : ℝ)) ∈ B
      · simpa [h] using hC
      · simp [h]
    have hl : law {v : ℕ → ℝ | (true, (1 : ℝ)) ∈ B ∧ v ∈ C}
        = c.weightLaw q e (Prod.mk true ⁻¹' B) * law C := by
      unfold weightLaw
      rw [hw]
      simp only
      rw [Measure.dirac_apply' _ (measurable_true hB)]
      by_cases h : (true, (1 : ℝ)) ∈ B <;> simp [h]
    rw [← hl]
    have hs : {u | (c.pairR e u).2 ∈ B ∧ drop (c.pairR e u).1 u ∈ C}
        = {u : ℕ → ℝ | if u 0 < q then drop 1 u ∈ {v : ℕ → ℝ | (true, (1 : ℝ)) ∈ B ∧ v ∈ C} else
            drop 1 u ∈ {v : ℕ → ℝ | (false, (0 : ℝ)) ∈ B ∧ v ∈ C}} := by
      ext u
      have hp : c.pairR e u = if u 0 < q then (1, (true, 1)) else (1, (false, 0)) := by
        unfold pairR pair real
        rw [hw, hq]
        by_cases h : u 0 < q <;> simp [h]
      simp only [Set.mem_ofPred_eq, hp]
      by_cases h : u 0 < q <;> simp [h]
    rw [hs]
    exact split_law h0 h1 hD hD'
  | cremb s_out s_in =>
    set μ := s_out e.1 * s_in e.2 / ((∑ i ∈ Finset.range c.n, s_out i) * q) with hμ
    have hg : Measurable fun v : ℝ => -Real.log (1 - v) :=
      (Real.measurable_log.comp (measurable_const.sub measurable_id)).neg
    have hA : MeasurableSet {v : ℝ | (true, μ * -Real.log (1 - v)) ∈ B} :=
      (measurable_true.comp (hg.const_mul μ)) hB
    obtain ⟨hD, hl⟩ := law_first hA hC
    have hlA : unif {v : ℝ | (true, μ * -Real.log (1 - v)) ∈ B}
        = c.weightLaw q e (Prod.mk true ⁻¹' B) := by
      unfold weightLaw
      rw [hw]
      simp only
      rw [← hμ, expLaw, ← map_neg_log, Measure.map_map (measurable_const_mul μ) hg,
        Measure.map_apply ((measurable_const_mul μ).comp hg) (measurable_true hB)]
      rfl
    rw [hlA] at hl
    rw [← hl]
    have hs : {u | (c.pairR e u).2 ∈ B ∧ drop (c.pairR e u).1 u ∈ C}
        = {u : ℕ → ℝ | if u 0 < q then drop 1 u ∈ {v : ℕ → ℝ | v 0 ∈
            {v : ℝ | (true, μ * -Real.log (1 - v)) ∈ B} ∧ drop 1 v ∈ C} else
            drop 1 u ∈ {v : ℕ → ℝ | (false, (0 : ℝ)) ∈ B ∧ v ∈ C}} := by
      ext u
      have hp : c.pairR e u = if u 0 < q then (2, (true, μ * -Real.log (1 - u 1)))
          else (1, (false, 0)) := by
        unfold pairR pair real
        rw [hw, hq]
        by_cases h : u 0 < q
        · simp only [ltb_fin_fin, h, decide_true, if_true]
          refine Prod.ext rfl (Prod.ext rfl ?_)
          show (DiGraphEnsemble.exponential _ _).toReal = _
          unfold DiGraphEnsemble.exponential
          rw [fin_mul_fin]
          by_cases hz : (∑ i ∈ Finset.range c.n, s_out i) * q = 0
          · have hn : (fin (s_out e.1 * s_in e.2) / fin ((∑ i ∈ Finset.range c.n, s_out i) * q) : XR)
                = nan := by
              show (if _ = (0 : ℝ) then nan else _) = nan
              rw [if_pos hz]
            rw [hn, hμ, hz, div_zero, zero_mul]
            rfl
          · rw [fin_div_fin _ _ hz, fin_mul_fin, toReal_fin, mul_comm]
        · simp [h]
      simp only [Set.mem_ofPred_eq, hp]
      by_cases h : u 0 < q
      · simp [h, drop_drop, drop]
      · simp [h]
    rw [hs]
    exact split_law h0 h1 hD hD'

/-! ## All entries of all samples -/

private noncomputable def pairsR (c : ℕ → WCall) (x : ℕ × (ℕ × ℕ)) (u : ℕ → ℝ) : ℕ × (Bool × ℝ) :=
  (c x.1).pairR x.2 u

private theorem entry_eq (c : ℕ → WCall) (u : ℕ → ℝ) (k m : ℕ) (hk : k < m) {e : ℕ × ℕ}
    (he : e ∈ Law.pairs (c k).n (c k).sl) :
    entryOf (rowsOf (order (c k).n (c k).sl) fun e => at_ c (k, e) u) e
      = val (pairsR c) (idx c m) u (k, e) := by
  have hx : (k, e) ∈ idx c m := mem_idx.2 ⟨hk, he⟩
  have h := val_post (pairs c) real (idx c m) u hx
  rw [at_eq c u m hx] at h
  rw [show val (pairsR c) (idx c m) u (k, e) = _ from h]
  unfold entryOf
  rw [lookup_rowsOf _ _ (mem_order.2 he)]
  unfold real
  cases (at_ c (k, e) u).1 <;> rfl

variable {Ω : Type} [MeasurableSpace Ω]

private theorem box (c : ℕ → WCall) (q : ℕ → ℕ × ℕ → ℝ)
    (hq : ∀ k i j, (c k).ens.p i j = fin (q k (i, j))) (h01 : ∀ k e, 0 ≤ q k e ∧ q k e ≤ 1)
    {P : Measure Ω} {U : ℕ → Ω → ℝ} (hU : IsUniform P U)
    (T : Finset (Σ k : ℕ, {e // e ∈ Law.pairs (c k).n (c k).sl}))
    (B : (Σ k : ℕ, {e // e ∈ Law.pairs (c k).n (c k).sl}) → Set (Bool × ℝ))
    (hB : ∀ x ∈ T, MeasurableSet (B x)) :
    MeasurableSet {ω | ∀ x ∈ T, entryOf (rowsOf (order (c x.1).n (c x.1).sl) fun e =>
      at_ c (x.1, e) fun i => U i ω) x.2.1 ∈ B x} ∧
    P {ω | ∀ x ∈ T, entryOf (rowsOf (order (c x.1).n (c x.1).sl) fun e =>
      at_ c (x.1, e) fun i => U i ω) x.2.1 ∈ B x}
      = ∏ x ∈ T, linkLaw (q x.1 x.2.1) ((c x.1).weightLaw (q x.1 x.2.1) x.2.1) (B x) := by
  classical
  let ι : (Σ k : ℕ, {e // e ∈ Law.pairs (c k).n (c k).sl}) → ℕ × (ℕ × ℕ) := fun x => (x.1, x.2.1)
  have hι : Function.Injective ι := by
    rintro ⟨k, e, he⟩ ⟨k', e', he'⟩ h
    obtain ⟨rfl, rfl⟩ := Prod.mk.inj h
    rfl
  obtain ⟨m, hm⟩ : ∃ m, ∀ x ∈ T, x.1 < m := by
    refine ⟨T.sup (fun x => x.1) + 1, fun x hx => ?_⟩
    exact Nat.lt_succ_of_le (Finset.le_sup (f := fun x : (Σ k : ℕ,
      {e // e ∈ Law.pairs (c k).n (c k).sl}) => x.1) hx)
  let B' : ℕ × (ℕ × ℕ) → Set (Bool × ℝ) := fun y =>
    if h : ∃ x ∈ T, ι x = y then B h.choose else Set.univ
  have hB1 : ∀ x ∈ T, B' (ι x) = B x := by
    intro x hx
    have h : ∃ x' ∈ T, ι x' = ι x := ⟨x, hx, rfl⟩
    show (if h : ∃ x' ∈ T, ι x' = ι x then B h.choose else Set.univ) = B x
    rw [dif_pos h]
    exact congrArg B (hι h.choose_spec.2)
  have hB2 : ∀ y, MeasurableSet (B' y) := by
    intro y
    by_cases h : ∃ x ∈ T, ι x = y
    · obtain ⟨x, hx, rfl⟩ := h
      rw [hB1 x hx]
      exact hB x hx
    · show MeasurableSet (if h : ∃ x ∈ T, ι x = y then B h.choose else Set.univ)
      rw [dif_neg h]
      exact MeasurableSet.univ
  obtain ⟨h1, h2⟩ := measure_val (S := pairsR c) (ν := fun x => linkLaw (q x.1 x.2)
    ((c x.1).weightLaw (q x.1 x.2) x.2)) (idx c m)
    (fun x _ => fresh_pair (c x.1) x.2 (hq x.1 x.2.1 x.2.2) (h01 _ _).1 (h01 _ _).2) (nodup_idx c m)
    hB2 MeasurableSet.univ
  have hs : {ω | ∀ x ∈ T, entryOf (rowsOf (order (c x.1).n (c x.1).sl) fun e =>
      at_ c (x.1, e) fun i => U i ω) x.2.1 ∈ B x}
      = (fun ω k => U k ω) ⁻¹' {u | (∀ x ∈ idx c m, val (pairsR c) (idx c m) u x ∈ B' x) ∧
          drop (used (pairsR c) (idx c m) u) u ∈ Set.univ} := by
    ext ω
    simp only [Set.mem_ofPred_eq, Set.mem_preimage, Set.mem_univ, and_true]
    constructor
    · intro h y hy
      by_cases hT : ∃ x ∈ T, ι x = y
      · obtain ⟨x, hx, rfl⟩ := hT
        rw [hB1 x hx, ← entry_eq c _ x.1 m (hm x hx) x.2.2]
        exact h x hx
      · show _ ∈ (if h : ∃ x ∈ T, ι x = y then B h.choose else Set.univ)
        rw [dif_neg hT]
        trivial
    · intro h x hx
      rw [entry_eq c _ x.1 m (hm x hx) x.2.2, ← hB1 x hx]
      exact h (ι x) (mem_idx.2 ⟨hm x hx, x.2.2⟩)
  have hmeas : Measurable fun ω k => U k ω := measurable_pi_iff.2 hU.meas
  rw [hs]
  refine ⟨hmeas h1, ?_⟩
  rw [← Measure.map_apply hmeas h1, hU.map_stream, h2, measure_univ, mul_one]
  have hsub : T.image ι ⊆ (idx c m).toFinset := by
    intro y hy
    obtain ⟨x, hx, rfl⟩ := Finset.mem_image.1 hy
    rw [List.mem_toFinset]
    exact mem_idx.2 ⟨hm x hx, x.2.2⟩
  rw [← Finset.prod_subset hsub, Finset.prod_image fun a _ b _ h => hι h]
  · refine Finset.prod_congr rfl fun x hx => ?_
    rw [hB1 x hx]
  · intro y _ hy
    have : B' y = Set.univ := by
      show (if h : ∃ x ∈ T, ι x = y then B h.choose else Set.univ) = _
      rw [dif_neg]
      rintro ⟨x, hx, rfl⟩
      exact hy (Finset.mem_image_of_mem _ hx)
    rw [this]
    exact linkLaw_univ (h01 _ _).1 (h01 _ _).2 _

end WCall

/-- Index set of the entries of successive samples: a call and an admissible pair of it. -/
abbrev WCall.Ix (c : ℕ → WCall) : Type := Σ k : ℕ, {e // e ∈ Law.pairs (c k).n (c k).sl}

variable {Ω : Type} [MeasurableSpace Ω]

/-- **C97**, law of the samples.  For every sequence of calls of `sample`, on the same or different
ensembles, with or without weights, all reading one stream of random numbers: every call returns a
graph, and all entries of all graphs are independent.  A pair of probability `q` is linked with
probability `q`, and the weight of a link is exponential with mean `s_out i * s_in j / (s_tot * q)`,
or one if the call is without weights. -/
theorem C97_law (c : ℕ → WCall) (q : ℕ → ℕ × ℕ → ℝ) (hq : ∀ k, (c k).ens.Is (q k))
    (hv : ∀ k, (c k).Valid) (P : Measure Ω) (U : ℕ → Ω → ℝ) (hU : IsUniform P U) :
    ∃ S : ℕ → Ω → List ((ℕ × ℕ) × XR),
      (∀ m ω, (WCall.run c (fun i => U i ω) m).2 = (List.range m).map fun k => .ok (S k ω)) ∧
      (∀ k ω, ((S k ω).map Prod.fst).Nodup ∧
        ∀ l ∈ S k ω, l.1 ∈ Law.pairs (c k).n (c k).sl) ∧
      iIndepFun (fun (x : WCall.Ix c) ω => entryOf (S x.1 ω) x.2.1) P ∧
      ∀ k, ∀ e ∈ Law.pairs (c k).n (c k).sl,
        Measurable (fun ω => entryOf (S k ω) e) ∧
        P.map (fun ω => entryOf (S k ω) e) = linkLaw (q k e) ((c k).weightLaw (q k e) e) := by
  have hc : ∀ k, (c k).ens.Coherent := fun k => (hq k).coherent
  obtain rfl : (fun k => (c k).ens.prob) = q := funext fun k => (hq k).prob_eq
  have hb := WCall.box c (fun k => (c k).ens.prob) (fun k i j => (hc k).p_eq i j)
    (fun k e => (hc k).prob_mem e) hU
  have hone : ∀ x : WCall.Ix c, ∀ B, MeasurableSet B → MeasurableSet ((fun ω => entryOf
      (rowsOf (order (c x.1).n (c x.1).sl) fun e => WCall.at_ c (x.1, e) fun i => U i ω) x.2.1) ⁻¹' B) ∧
      P ((fun ω => entryOf (rowsOf (order (c x.1).n (c x.1).sl) fun e =>
        WCall.at_ c (x.1, e) fun i => U i ω) x.2.1) ⁻¹' B)
        = linkLaw ((c x.1).ens.prob x.2.1) ((c x.1).weightLaw ((c x.1).ens.prob x.2.1) x.2.1) B := by
    intro x B hB
    have h := hb {x} (fun _ => B) (fun _ _ => hB)
    simp only [Finset.mem_singleton, forall_eq, Finset.prod_singleton] at h
    exact h
  refine ⟨fun k ω => rowsOf (order (c k).n (c k).sl) fun e => WCall.at_ c (k, e) fun i => U i ω,
    fun m ω => by rw [WCall.run_eq c hv], fun k ω => ⟨?_, ?_⟩, ?_, fun k e he => ?_⟩
  · have : (rowsOf (order (c k).n (c k).sl) fun e => WCall.at_ c (k, e) fun i => U i ω).map Prod.fst
        = (order (c k).n (c k).sl).filter fun e => (WCall.at_ c (k, e) fun i => U i ω).1 := by
      unfold rowsOf
      induction order (c k).n (c k).sl with
      | nil => rfl
      | cons a l ih =>
        rw [List.filterMap_cons, List.filter_cons]
        cases (WCall.at_ c (k, a) fun i => U i ω).1 <;> simpa using ih
    rw [this]
    exact (nodup_order _ _).filter _
  · intro l hl
    unfold rowsOf at hl
    rw [List.mem_filterMap] at hl
    obtain ⟨a, ha, hl⟩ := hl
    split at hl
    · injection hl with hl
      subst hl
      exact mem_order.1 ha
    · cases hl
  · rw [iIndepFun_iff_measure_inter_preimage_eq_mul]
    intro T B hB
    have h := (hb T B hB).2
    rw [Finset.prod_congr rfl fun x hx => (hone x (B x) (hB x hx)).2, ← h]
    congr 1
    ext ω
    simp
  · have hm : Measurable fun ω => entryOf (rowsOf (order (c k).n (c k).sl) fun e =>
        WCall.at_ c (k, e) fun i => U i ω) e := fun B hB => (hone ⟨k, e, he⟩ B hB).1
    refine ⟨hm, ?_⟩
    ext B hB
    rw [Measure.map_apply hm hB]
    exact (hone ⟨k, e, he⟩ B hB).2


/-! ## How many random numbers are read -/

namespace WCall

/-- How many numbers a call reads for weights. -/
def weightDraws (c : WCall) (L : List ((ℕ × ℕ) × XR)) : ℕ :=
  match c.weights with
  | .none => 0
  | .cremb _ _ => L.length

private theorem used_pair (c : WCall) (l : List (ℕ × ℕ)) (hl : l.Nodup) (u : ℕ → ℝ) :
    used c.pair l u = l.length + c.weightDraws (rowsOf l (val c.pair l u)) := by
  induction l generalizing u with
  | nil =>
    unfold weightDraws
    cases c.weights <;> rfl
  | cons a l ih =>
    rw [List.nodup_cons] at hl
    have hc : rowsOf l (val c.pair (a :: l) u) = rowsOf l (val c.pair l (drop (c.pair a u).1 u)) := by
      refine rowsOf_congr fun e he => ?_
      simp only [val]
      rw [if_neg fun h : e = a => hl.1 (h ▸ he)]
    have hr : rowsOf (a :: l) (val c.pair (a :: l) u)
        = (if (c.pair a u).2.1 then [(a, (c.pair a u).2.2)] else [])
          ++ rowsOf l (val c.pair l (drop (c.pair a u).1 u)) := by
      rw [← hc]
      unfold rowsOf
      rw [List.filterMap_cons]
      simp only [val, if_true]
      cases (c.pair a u).2.1 <;> simp
    rw [hr, used, ih hl.2]
    unfold weightDraws pair
    cases c.weights with
    | none => simp; omega
    | cremb so si =>
      simp only [List.length_append, List.length_cons]
      cases h : ltb (fin (u 0)) (c.ens.p a.1 a.2)
      · simp; omega
      · simp; omega

end WCall

/-- **C97**, random numbers read.  Calls read one number for every admissible pair and, with weights,
one more for every link. -/
theorem C97_numbers (c : ℕ → WCall) (hv : ∀ k, (c k).Valid) (u : ℕ → ℝ) (m : ℕ) :
    ∃ S : ℕ → List ((ℕ × ℕ) × XR), (WCall.run c u m).2 = (List.range m).map (fun k => .ok (S k)) ∧
      (WCall.run c u m).1 = ∑ k ∈ Finset.range m, ((Law.pairs (c k).n (c k).sl).card +
        match (c k).weights with
        | .none => 0
        | .cremb _ _ => (S k).length) := by
  refine ⟨fun k => rowsOf (order (c k).n (c k).sl) fun e => WCall.at_ c (k, e) u,
    by rw [WCall.run_eq c hv], ?_⟩
  rw [WCall.run_eq c hv]
  simp only
  induction m with
  | zero => rfl
  | succ m ih =>
    rw [WCall.idx_succ, used_append, used_map, Finset.sum_range_succ, ← ih]
    congr 1
    rw [show (fun e => WCall.pairs c (m, e)) = (c m).pair from rfl,
      WCall.used_pair _ _ (nodup_order _ _), Call.length_order]
    congr 1
    unfold WCall.weightDraws
    cases (c m).weights with
    | none => rfl
    | cremb so si =>
      simp only
      congr 1
      exact rowsOf_congr fun e _ => (WCall.at_call c u m e).symm

/-- **C97**, exceptions: a weighted call raises exactly when the sums of the strengths differ by a
relative `1e-6` or more, or the out strengths sum to zero; it then reads no random number. -/
theorem C97_refused (c : WCall) (u : ℕ → ℝ) :
    (c.sample u).2 = .error .strengthsDiffer ↔ ∃ s_out s_in, c.weights = .cremb s_out s_in ∧
      ((∑ i ∈ Finset.range c.n, s_out i) = 0 ∨
        1e-6 * |∑ i ∈ Finset.range c.n, s_out i|
          ≤ |(∑ i ∈ Finset.range c.n, s_out i) - ∑ i ∈ Finset.range c.n, s_in i|) := by
  by_cases hv : c.Valid
  · rw [WCall.sample_eq c hv]
    refine ⟨(fun h => by cases h), ?_⟩
    rintro ⟨so, si, hw, h⟩
    unfold WCall.Valid at hv
    rw [hw] at hv
    rcases h with h | h
    · exact absurd h hv.1
    · exact absurd hv.2 (not_lt.2 h)
  · refine ⟨fun _ => ?_, fun _ => by rw [WCall.sample_invalid c hv]⟩
    unfold WCall.Valid at hv
    cases hw : c.weights with
    | none => rw [hw] at hv; exact absurd trivial hv
    | cremb so si =>
      rw [hw] at hv
      refine ⟨so, si, rfl, ?_⟩
      by_contra h
      push Not at h
      exact hv h

/-- A call that raises reads no random number: the next one is read by the next call. -/
theorem C97_refused_draws (c : WCall) (u : ℕ → ℝ) (h : ∀ L, (c.sample u).2 ≠ .ok L) :
    (c.sample u).1 = 0 := by
  by_cases hv : c.Valid
  · rw [WCall.sample_eq c hv] at h
    exact absurd rfl (h _)
  · rw [WCall.sample_invalid c hv]

/-! ## Weights are numbers -/

theorem val_prop {E R : Type} [DecidableEq E] [Inhabited R] (S : E → (ℕ → ℝ) → ℕ × R)
    (Q : R → Prop) {x : E} (u : ℕ → ℝ) (h : ∀ k, Q (S x (drop k u)).2) (l : List E) (hx : x ∈ l) :
    Q (val S l u x) := by
  induction l generalizing u with
  | nil => simp at hx
  | cons a l ih =>
    simp only [val]
    split
    · next h' =>
      have := h 0
      rw [drop_zero, h'] at this
      exact this
    · next h' =>
      refine ih _ (fun k => ?_) (by simpa [h'] using hx)
      rw [drop_drop]
      exact h _

/-- **C97**, weights.  With random numbers in `[0, 1)`, every weight is a finite number, and not
negative if the strengths are not. -/
theorem C97_weights (c : WCall) (q : ℕ × ℕ → ℝ) (hq : c.ens.Is q) (s_out s_in : ℕ → ℝ)
    (hw : c.weights = .cremb s_out s_in) (u : ℕ → ℝ) (hu : ∀ k, 0 ≤ u k ∧ u k < 1)
    (L : List ((ℕ × ℕ) × XR)) (hL : (c.sample u).2 = .ok L) :
    ∀ l ∈ L, 0 < q l.1 ∧ ∃ w : ℝ, l.2 = fin w ∧
      ((∀ i < c.n, 0 ≤ s_out i ∧ 0 ≤ s_in i) → 0 ≤ w) := by
  have hc := hq.coherent
  obtain rfl := hq.prob_eq
  by_cases hv : c.Valid
  swap
  · rw [WCall.sample_invalid c hv] at hL
    cases hL
  rw [WCall.sample_eq c hv] at hL
  injection hL with hL
  subst hL
  have hv' := hv
  unfold WCall.Valid at hv'
  rw [hw] at hv'
  have hne := hv'.1
  intro l hl
  unfold rowsOf at hl
  rw [List.mem_filterMap] at hl
  obtain ⟨e, he, hl⟩ := hl
  have hQ := val_prop c.pair (fun r => r.1 = true → 0 < c.ens.prob e ∧ ∃ w : ℝ, r.2 = fin w ∧
      ((∀ i < c.n, 0 ≤ s_out i ∧ 0 ≤ s_in i) → 0 ≤ w)) (x := e) u (fun k => ?_) _ he
  · split at hl
    · next h =>
      injection hl with hl
      subst hl
      exact hQ h
    · cases hl
  · unfold WCall.pair
    rw [hw, hc.p_eq]
    simp only [ltb_fin_fin, decide_eq_true_eq]
    split
    · next hlt =>
      intro _
      have hp : 0 < c.ens.prob e := lt_of_le_of_lt (hu _).1 hlt
      refine ⟨hp, s_out e.1 * s_in e.2 / ((∑ i ∈ Finset.range c.n, s_out i) * c.ens.prob e) *
        -Real.log (1 - drop k u 1), ?_, fun hs => ?_⟩
      · show DiGraphEnsemble.exponential _ _ = _
        unfold DiGraphEnsemble.exponential
        rw [fin_mul_fin, fin_div_fin _ _ (mul_ne_zero hne hp.ne'), fin_mul_fin, mul_comm]
      · obtain ⟨h1, h2, -⟩ := Law.mem_pairs.1 (mem_order.1 he)
        have hsum : 0 ≤ ∑ i ∈ Finset.range c.n, s_out i :=
          Finset.sum_nonneg fun i hi => (hs i (Finset.mem_range.1 hi)).1
        have hlog : Real.log (1 - drop k u 1) ≤ 0 :=
          Real.log_nonpos (by linarith [(hu (k + 1)).2, show drop k u 1 = u (k + 1) from rfl])
            (by linarith [(hu (k + 1)).1, show drop k u 1 = u (k + 1) from rfl])
        exact mul_nonneg (div_nonneg (mul_nonneg (hs _ h1).1 (hs _ h2).2)
          (mul_nonneg hsum hp.le)) (by linarith)
    · intro h
      simp at h

/-! ## Averages -/

private theorem mean_exp : Integrable (fun x : ℝ => x) (expMeasure 1) ∧ ∫ x, x ∂(expMeasure 1) = 1 := by
  have hm : Measurable fun v : ℝ => -Real.log (1 - v) :=
    (Real.measurable_log.comp (measurable_const.sub measurable_id)).neg
  have hi : IntervalIntegrable (fun v : ℝ => -Real.log (1 - v)) volume 0 1 := by
    have := (intervalIntegral.intervalIntegrable_log' (a := 1) (b := 0)).comp_sub_left 1
    have h2 := this.neg
    simp only [sub_self, sub_zero] at h2
    exact h2
  rw [← map_neg_log]
  constructor
  · refine (integrable_map_measure (f := fun v : ℝ => -Real.log (1 - v)) (g := fun x : ℝ => x)
      measurable_id'.aestronglyMeasurable hm.aemeasurable).2 ?_
    unfold unif
    rw [intervalIntegrable_iff_integrableOn_Ioc_of_le zero_le_one,
      ← integrableOn_Icc_iff_integrableOn_Ioc, integrableOn_Icc_iff_integrableOn_Ico] at hi
    exact hi
  · rw [integral_map hm.aemeasurable measurable_id'.aestronglyMeasurable, unif,
      integral_Ico_eq_integral_Ioc, ← intervalIntegral.integral_of_le zero_le_one,
      intervalIntegral.integral_neg, intervalIntegral.integral_comp_sub_left (fun x => Real.log x)]
    simp [integral_log]

theorem mean_expLaw (μ : ℝ) : Integrable (fun x : ℝ => x) (expLaw μ) ∧ ∫ x, x ∂(expLaw μ) = μ := by
  obtain ⟨h1, h2⟩ := mean_exp
  have hm : Measurable fun x : ℝ => μ * x := measurable_const_mul μ
  unfold expLaw
  constructor
  · exact (integrable_map_measure (f := fun x : ℝ => μ * x) (g := fun x : ℝ => x)
      measurable_id'.aestronglyMeasurable hm.aemeasurable).2 (h1.const_mul μ)
  · rw [integral_map hm.aemeasurable measurable_id'.aestronglyMeasurable, integral_const_mul, h2, mul_one]

theorem mean_linkLaw {p : ℝ} (h0 : 0 ≤ p) (ν : Measure ℝ) [IsProbabilityMeasure ν]
    (hν : Integrable (fun x : ℝ => x) ν) :
    Integrable (fun x : Bool × ℝ => x.2) (linkLaw p ν) ∧
    ∫ x, x.2 ∂(linkLaw p ν) = p * ∫ x, x ∂ν := by
  have i1 : Integrable (fun x : Bool × ℝ => x.2) (ν.map (Prod.mk true)) :=
    (integrable_map_measure (f := Prod.mk true) (g := fun x : Bool × ℝ => x.2)
      measurable_snd.aestronglyMeasurable measurable_true.aemeasurable).2 hν
  have i2 : Integrable (fun x : Bool × ℝ => x.2) (Measure.dirac (false, (0 : ℝ))) :=
    integrable_dirac (by simp)
  have j1 := i1.smul_measure (c := ENNReal.ofReal p) ENNReal.ofReal_ne_top
  have j2 := i2.smul_measure (c := ENNReal.ofReal (1 - p)) ENNReal.ofReal_ne_top
  unfold linkLaw
  refine ⟨j1.add_measure j2, ?_⟩
  rw [integral_add_measure j1 j2, integral_smul_measure, integral_smul_measure, integral_dirac,
    integral_map measurable_true.aemeasurable measurable_snd.aestronglyMeasurable,
    ENNReal.toReal_ofReal h0]
  simp

/-- **C97**, averages of weights.  Over repeated weighted calls on one ensemble, the average of the
total weight of the links within any set `T` of admissible pairs converges with probability one to the
sum of `s_out i * s_in j / s_tot` over the pairs of `T` that can be linked.  For `T` the pairs that
start at a vertex this is the out strength of the vertex less the shares of the pairs left out. -/
theorem C97_average (c : WCall) (q : ℕ × ℕ → ℝ) (hq : c.ens.Is q) (hv : c.Valid) (s_out s_in : ℕ → ℝ)
    (hw : c.weights = .cremb s_out s_in) (T : Finset (ℕ × ℕ)) (hT : T ⊆ Law.pairs c.n c.sl)
    (P : Measure Ω) (U : ℕ → Ω → ℝ) (hU : IsUniform P U) :
    ∃ S : ℕ → Ω → List ((ℕ × ℕ) × XR),
      (∀ m ω, (WCall.run (fun _ => c) (fun i => U i ω) m).2
        = (List.range m).map fun k => .ok (S k ω)) ∧
      ∀ᵐ ω ∂P, Tendsto (fun m : ℕ => (∑ k ∈ Finset.range m, ∑ e ∈ T, (entryOf (S k ω) e).2) / m) atTop
        (𝓝 (∑ e ∈ T, if q e = 0 then 0 else
          s_out e.1 * s_in e.2 / ∑ i ∈ Finset.range c.n, s_out i)) := by
  obtain ⟨S, h1, -, h3, h4⟩ := C97_law (fun _ => c) (fun _ => q) (fun _ => hq) (fun _ => hv) P U hU
  refine ⟨S, h1, ?_⟩
  have hc := hq.coherent
  have hmem : ∀ e, 0 ≤ q e := by
    intro e
    have := hc.prob_mem e
    rw [hq.prob_eq] at this
    exact this.1
  have key : ∀ e ∈ T, ∀ᵐ ω ∂P, Tendsto (fun m : ℕ => (∑ k ∈ Finset.range m, (entryOf (S k ω) e).2) / m)
      atTop (𝓝 (if q e = 0 then 0 else s_out e.1 * s_in e.2 / ∑ i ∈ Finset.range c.n, s_out i)) := by
    intro e he
    have he' := hT he
    have hint := mean_linkLaw (hmem e) (c.weightLaw (q e) e) (by
      unfold WCall.weightLaw
      rw [hw]
      exact (mean_expLaw _).1)
    have hmean : ∫ x, x ∂(c.weightLaw (q e) e)
        = s_out e.1 * s_in e.2 / ((∑ i ∈ Finset.range c.n, s_out i) * q e) := by
      unfold WCall.weightLaw
      rw [hw]
      exact (mean_expLaw _).2
    have hI : ∀ k, Integrable (fun ω => (entryOf (S k ω) e).2) P := by
      intro k
      obtain ⟨m, l⟩ := h4 k e he'
      rw [← l] at hint
      exact (integrable_map_measure (f := fun ω => entryOf (S k ω) e) (g := fun x : Bool × ℝ => x.2)
        measurable_snd.aestronglyMeasurable m.aemeasurable).1 hint.1
    have hE : ∫ ω, (entryOf (S 0 ω) e).2 ∂P
        = if q e = 0 then 0 else s_out e.1 * s_in e.2 / ∑ i ∈ Finset.range c.n, s_out i := by
      obtain ⟨m, l⟩ := h4 0 e he'
      have := integral_map (μ := P) (φ := fun ω => entryOf (S 0 ω) e) (f := fun x : Bool × ℝ => x.2)
        m.aemeasurable measurable_snd.aestronglyMeasurable
      rw [← this, l, hint.2, hmean]
      split
      · next h => rw [h, zero_mul]
      · next h =>
        rw [mul_div_assoc', mul_comm (∑ i ∈ Finset.range c.n, s_out i), mul_div_mul_left _ _ h]
    have hind : Pairwise (Function.onFun (fun f g => IndepFun f g P)
        fun k ω => (entryOf (S k ω) e).2) := by
      intro a b hab
      have := h3.indepFun (i := ⟨a, e, he'⟩) (j := ⟨b, e, he'⟩) (fun h => hab (congrArg Sigma.fst h))
      exact this.comp measurable_snd measurable_snd
    have hid : ∀ k, IdentDistrib (fun ω => (entryOf (S k ω) e).2) (fun ω => (entryOf (S 0 ω) e).2) P P := by
      intro k
      have : IdentDistrib (fun ω => entryOf (S k ω) e) (fun ω => entryOf (S 0 ω) e) P P :=
        ⟨(h4 k e he').1.aemeasurable, (h4 0 e he').1.aemeasurable,
          by rw [(h4 k e he').2, (h4 0 e he').2]⟩
      exact this.comp measurable_snd
    rw [← hE]
    exact strong_law_ae_real _ (hI 0) hind hid
  have hall : ∀ᵐ ω ∂P, ∀ e ∈ T, Tendsto (fun m : ℕ => (∑ k ∈ Finset.range m,
      (entryOf (S k ω) e).2) / m) atTop (𝓝 (if q e = 0 then 0 else
        s_out e.1 * s_in e.2 / ∑ i ∈ Finset.range c.n, s_out i)) :=
    (ae_ball_iff T.countable_toSet).2 key
  filter_upwards [hall] with ω hω
  have := tendsto_finsetSum T hω
  refine this.congr fun m => ?_
  rw [Finset.sum_comm, Finset.sum_div]

/-- Hypotheses of `C97_law`, `C97_numbers` and `C97_average`: two ensembles, called with and without
weights in turn, and a generator. -/
example : ∃ (c : ℕ → WCall) (q : ℕ → ℕ × ℕ → ℝ), (∀ k, (c k).ens.Is (q k)) ∧ (∀ k, (c k).Valid) ∧
    (c 0).weights = .none ∧ (∃ so si, (c 1).weights = .cremb so si) ∧
    ∃ (Ω : Type) (_ : MeasurableSpace Ω) (P : Measure Ω) (U : ℕ → Ω → ℝ), IsUniform P U := by
  obtain ⟨Ω, m, P, _, U, h⟩ := exists_isUniform ℕ
  refine ⟨fun k => ⟨⟨Ens.sparseFit 1 (fun i => i) (fun j => j) (fun _ _ => 1), 3, false⟩,
    if k % 2 = 0 then .none else .cremb (fun i => i) (fun j => 2 - j)⟩, fun _ => _,
    fun k => .sparseFit _ _ _ _, fun k => ?_, rfl, ⟨_, _, rfl⟩, Ω, m, P, U, h⟩
  unfold WCall.Valid
  rcases Nat.mod_two_eq_zero_or_one k with h | h
  · simp [h]
  · simp only [h]
    norm_num [Finset.sum_range_succ]

end Verif
