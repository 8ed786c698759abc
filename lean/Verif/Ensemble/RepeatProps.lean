import Verif.Ensemble.RepeatLemmas
import Verif.Sampled.MeanLemmas
import Verif.Ensemble.ModelProps

/-!
# C95: repeated sampling

`Call.run c u m` (`Verif/Ensemble/Repeat.lean`): the first `m` of a sequence of calls of `sample` on
one generator.  `Ens.Is E q` (`Verif/Ensemble/ModelProps.lean`): `E` is one of the ensembles of the
library and `q` its formula for the link probabilities.
-/

namespace Verif

open XR MeasureTheory ProbabilityTheory Filter Topology
open scoped NNReal ENNReal

variable {Ω : Type} [MeasurableSpace Ω]

/-! ## Independence -/

/-- **C95**, independence.  Successive calls of `sample`, on the same or on different ensembles, give
independent graphs, each with the law of its ensemble.  Each call uses as many random numbers as there
are admissible pairs, whatever the parameters and the numbers drawn. -/
theorem C95_independent (c : ℕ → Call) (q : ℕ → ℕ × ℕ → ℝ) (hq : ∀ k, (c k).ens.Is (q k))
    (P : Measure Ω) (U : ℕ → Ω → ℝ) (hU : IsUniform P U) (m : ℕ) (G : ℕ → Finset (ℕ × ℕ))
    (hG : ∀ k < m, G k ⊆ Law.pairs (c k).n (c k).sl) :
    P {ω | (Call.run c (fun k => U k ω) m).2.map List.toFinset = (List.range m).map G}
      = ∏ k ∈ Finset.range m,
          ENNReal.ofReal (Law.prob (Law.pairs (c k).n (c k).sl) (q k) (G k)) ∧
    ∀ u : ℕ → ℝ, (Call.run c u m).1
      = ∑ k ∈ Finset.range m, (Law.pairs (c k).n (c k).sl).card := by
  have hc : ∀ k, (c k).ens.Coherent := fun k => (hq k).coherent
  obtain rfl : (fun k => (c k).ens.prob) = q := funext fun k => (hq k).prob_eq
  refine ⟨?_, fun u => by rw [Call.run_eq]; rfl⟩
  have hbox := (hU.precomp (Call.at_injective c)).measure_box
    ((Finset.range m).sigma fun k => (Finset.univ : Finset {e // e ∈ Law.pairs (c k).n (c k).sl}))
    (fun x => (c x.1).ens.prob x.2.1) (fun x _ => (hc x.1).prob_mem _) (fun x => x.2.1 ∈ G x.1)
  have hset : {ω | (Call.run c (fun k => U k ω) m).2.map List.toFinset = (List.range m).map G}
      = {ω | ∀ x ∈ (Finset.range m).sigma
          fun k => (Finset.univ : Finset {e // e ∈ Law.pairs (c k).n (c k).sl}),
          U (Call.at_ c x) ω < (c x.1).ens.prob x.2.1 ↔ x.2.1 ∈ G x.1} := by
    ext ω
    simp only [Set.mem_ofPred_eq, Call.run_eq, List.map_map]
    constructor
    · rintro h ⟨k, e, he⟩ hx
      have hk : k < m := by simpa using hx
      have h1 := List.map_inj_left.1 h k (List.mem_range.2 hk)
      have h2 := Call.mem_sample (hc k) (fun k => U k ω) e
      rw [show ((c k).ens.binary_sample_stream (c k).n (c k).sl
        (fun i => U (Call.pos c k + i) ω)).toFinset = G k from h1] at h2
      show U (Call.pos c k + _) ω < _ ↔ e ∈ G k
      rw [h2]
      exact ⟨fun h => ⟨he, h⟩, fun h => h.2⟩
    · intro h
      refine List.map_inj_left.2 fun k hk => ?_
      have hk' := List.mem_range.1 hk
      show ((c k).ens.binary_sample_stream (c k).n (c k).sl
        (fun i => U (Call.pos c k + i) ω)).toFinset = G k
      ext e
      rw [Call.mem_sample (hc k) (fun k => U k ω) e]
      constructor
      · rintro ⟨he, hlt⟩
        exact (h ⟨k, e, he⟩ (by simpa using hk')).1 hlt
      · intro he
        exact ⟨hG k hk' he, (h ⟨k, e, hG k hk' he⟩ (by simpa using hk')).2 he⟩
  rw [hset, hbox, Finset.prod_sigma, ENNReal.ofReal_prod_of_nonneg]
  · refine Finset.prod_congr rfl fun k _ => ?_
    congr 1
    unfold Law.prob
    exact Finset.prod_attach (Law.pairs (c k).n (c k).sl)
      (fun e => if e ∈ G k then (c k).ens.prob e else 1 - (c k).ens.prob e)
  · intro k _
    refine Finset.prod_nonneg fun e _ => ?_
    have := (hc k).prob_mem e.1
    split <;> linarith [this.1, this.2]

/-! ## Averages over samples -/

section Averages

variable {P : Measure Ω} {U : ℕ → Ω → ℝ}

/-- A function of the links chosen by finitely many comparisons is measurable. -/
private theorem measurable_pick {A : Type} [MeasurableSpace A] (S : Finset (ℕ × ℕ))
    (g : ℕ × ℕ → A → Prop) (hg : ∀ e ∈ S, MeasurableSet {a | g e a})
    [∀ a, DecidablePred fun e => g e a] (F : Finset (ℕ × ℕ) → ℝ) :
    Measurable fun a => F (S.filter fun e => g e a) := by
  classical
  let b : A → ({e // e ∈ S} → Bool) := fun a e => decide (g e.1 a)
  have hb : Measurable b := by
    rw [measurable_pi_iff]
    intro e
    refine measurable_to_bool ?_
    have : (fun a => b a e) ⁻¹' {true} = {a | g e.1 a} := by
      ext a
      simp [b]
    rw [this]
    exact hg e.1 e.2
  let h : ({e // e ∈ S} → Bool) → ℝ := fun v =>
    F (S.filter fun e => ∃ he : e ∈ S, v ⟨e, he⟩ = true)
  have hh : Measurable h := measurable_of_finite h
  have : (fun a => F (S.filter fun e => g e a)) = h ∘ b := by
    funext a
    show F _ = F _
    congr 1
    ext e
    simp only [Finset.mem_filter, b, decide_eq_true_eq]
    exact ⟨fun ⟨h1, h2⟩ => ⟨h1, h1, h2⟩, fun ⟨h1, _, h2⟩ => ⟨h1, h2⟩⟩
  rw [this]
  exact hh.comp hb

private theorem pos_const (c : Call) (k : ℕ) :
    Call.pos (fun _ => c) k = k * (Law.pairs c.n c.sl).card := by
  simp [Call.pos]

/-- The `k`-th sample of an ensemble. -/
private noncomputable def smp (c : Call) (u : ℕ → ℝ) (k : ℕ) : Finset (ℕ × ℕ) :=
  (c.ens.binary_sample_stream c.n c.sl
    (fun i => u (k * (Law.pairs c.n c.sl).card + i))).toFinset

private theorem mem_smp {c : Call} (hc : c.ens.Coherent) (u : ℕ → ℝ) (k : ℕ) (e : ℕ × ℕ) :
    e ∈ smp c u k ↔ e ∈ Law.pairs c.n c.sl ∧
      u (k * (Law.pairs c.n c.sl).card + (order c.n c.sl).idxOf e) < c.ens.prob e := by
  have := Call.mem_sample (c := fun _ => c) (k := k) hc u e
  rw [pos_const] at this
  exact this

private theorem run_smp (c : Call) (u : ℕ → ℝ) (m : ℕ) (F : Finset (ℕ × ℕ) → ℝ) :
    ((Call.run (fun _ => c) u m).2.map fun L => F L.toFinset).sum
      = ∑ k ∈ Finset.range m, F (smp c u k) := by
  rw [Call.run_eq, List.map_map, Finset.sum_eq_multiset_sum]
  simp only [pos_const]
  rfl

/-- The sample as a function of a block of random numbers. -/
private noncomputable def blockF (c : Call) (F : Finset (ℕ × ℕ) → ℝ)
    (v : Fin (Law.pairs c.n c.sl).card → ℝ) : ℝ :=
  open Classical in
  F ((Law.pairs c.n c.sl).filter fun e =>
    ∃ h : (order c.n c.sl).idxOf e < (Law.pairs c.n c.sl).card,
      v ⟨(order c.n c.sl).idxOf e, h⟩ < c.ens.prob e)

private theorem measurable_blockF (c : Call) (F : Finset (ℕ × ℕ) → ℝ) :
    Measurable (blockF c F) := by
  classical
  unfold blockF
  refine measurable_pick _ (fun e (v : Fin (Law.pairs c.n c.sl).card → ℝ) =>
    ∃ h : (order c.n c.sl).idxOf e < (Law.pairs c.n c.sl).card,
      v ⟨(order c.n c.sl).idxOf e, h⟩ < c.ens.prob e) (fun e he => ?_) F
  have h := Call.idx_lt he
  have : {v : Fin (Law.pairs c.n c.sl).card → ℝ |
      ∃ h : (order c.n c.sl).idxOf e < (Law.pairs c.n c.sl).card,
        v ⟨(order c.n c.sl).idxOf e, h⟩ < c.ens.prob e}
      = (fun v => v ⟨(order c.n c.sl).idxOf e, h⟩) ⁻¹' Set.Iio (c.ens.prob e) := by
    ext v
    exact ⟨fun ⟨_, h2⟩ => h2, fun h2 => ⟨h, h2⟩⟩
  rw [this]
  exact measurable_pi_apply _ measurableSet_Iio

private theorem smp_eq_blockF {c : Call} (hc : c.ens.Coherent) (F : Finset (ℕ × ℕ) → ℝ) (k : ℕ)
    (u : ℕ → ℝ) : F (smp c u k)
      = blockF c F (fun i => u (k * (Law.pairs c.n c.sl).card + i)) := by
  unfold blockF
  congr 1
  ext e
  rw [mem_smp hc, Finset.mem_filter]
  exact ⟨fun ⟨h1, h2⟩ => ⟨h1, Call.idx_lt h1, h2⟩, fun ⟨h1, _, h2⟩ => ⟨h1, h2⟩⟩

private theorem indep_smp (hU : IsUniform P U) {c : Call} (hc : c.ens.Coherent)
    (F : Finset (ℕ × ℕ) → ℝ) {i j : ℕ} (hij : i ≠ j) :
    IndepFun (fun ω => F (smp c (fun k => U k ω) i)) (fun ω => F (smp c (fun k => U k ω) j)) P := by
  set L := (Law.pairs c.n c.sl).card with hL
  have hd : Disjoint (Finset.Ico (i * L) (i * L + L)) (Finset.Ico (j * L) (j * L + L)) := by
    rw [Finset.disjoint_left]
    intro x hx hy
    rw [Finset.mem_Ico] at hx hy
    rcases lt_or_gt_of_ne hij with h | h
    · have : (i + 1) * L ≤ j * L := Nat.mul_le_mul_right L h
      rw [add_mul, one_mul] at this
      omega
    · have : (j + 1) * L ≤ i * L := Nat.mul_le_mul_right L h
      rw [add_mul, one_mul] at this
      omega
  have h := hU.indep.indepFun_finset _ _ hd hU.meas
  have mem : ∀ (k : ℕ) (x : Fin L), k * L + x ∈ Finset.Ico (k * L) (k * L + L) := fun k x => by
    rw [Finset.mem_Ico]
    have := x.2
    omega
  let φ : ∀ k : ℕ, ((Finset.Ico (k * L) (k * L + L) : Finset ℕ) → ℝ) → ℝ := fun k v =>
    blockF c F (fun x => v ⟨k * L + x, mem k x⟩)
  have hφ : ∀ k, Measurable (φ k) := fun k =>
    (measurable_blockF c F).comp (measurable_pi_iff.2 fun x => measurable_pi_apply _)
  have h2 := h.comp (hφ i) (hφ j)
  have e : ∀ k, (fun ω => F (smp c (fun k => U k ω) k)) = φ k ∘
      (fun ω (x : (Finset.Ico (k * L) (k * L + L) : Finset ℕ)) => U x ω) := fun k => by
    funext ω
    exact smp_eq_blockF hc F k _
  rw [e i, e j]
  exact h2

private theorem ident_smp [IsProbabilityMeasure P] (hU : IsUniform P U) {c : Call}
    (hc : c.ens.Coherent) (F : Finset (ℕ × ℕ) → ℝ) (i : ℕ) :
    IdentDistrib (fun ω => F (smp c (fun k => U k ω) i)) (fun ω => F (smp c (fun k => U k ω) 0))
      P P := by
  set L := (Law.pairs c.n c.sl).card with hL
  have inj : ∀ k : ℕ, Function.Injective fun x : Fin L => k * L + x.1 := fun k x y h => by
    apply Fin.ext
    simpa using h
  have hV : ∀ k : ℕ, P.map (fun ω (x : Fin L) => U (k * L + x) ω) = Measure.pi fun _ => unif := by
    intro k
    have h := hU.precomp (inj k)
    have := (iIndepFun_iff_map_fun_eq_pi_map (fun x => (h.meas x).aemeasurable)).1 h.indep
    rw [this]
    congr 1
    funext x
    exact h.law x
  have hm : ∀ k : ℕ, Measurable fun ω (x : Fin L) => U (k * L + x) ω := fun k =>
    measurable_pi_iff.2 fun x => hU.meas _
  have hid : IdentDistrib (fun ω (x : Fin L) => U (i * L + x) ω) (fun ω (x : Fin L) => U (0 * L + x) ω)
      P P := ⟨(hm i).aemeasurable, (hm 0).aemeasurable, by rw [hV, hV]⟩
  have := hid.comp (measurable_blockF c F)
  have e : ∀ k, (fun ω => F (smp c (fun k => U k ω) k)) = blockF c F ∘
      (fun ω (x : Fin L) => U (k * L + x) ω) := fun k => by
    funext ω
    exact smp_eq_blockF hc F k _
  rw [e i, e 0]
  exact this

private theorem mean_smp (hU : IsUniform P U) {c : Call} (hc : c.ens.Coherent)
    (F : Finset (ℕ × ℕ) → ℝ) :
    Integrable (fun ω => F (smp c (fun k => U k ω) 0)) P ∧
    ∫ ω, F (smp c (fun k => U k ω) 0) ∂P = Law.mean (Law.pairs c.n c.sl) c.ens.prob F := by
  have e0 : ∀ ω, smp c (fun k => U k ω) 0
      = (c.ens.binary_sample_stream c.n c.sl (fun k => U k ω)).toFinset := fun ω => by
    unfold smp
    simp
  refine integral_of_law (fun e _ => hc.prob_mem e) (fun ω e he => ((mem_smp hc _ 0 e).1 he).1)
    (fun e he => ?_) (fun G hG => ?_) F
  · have : {ω | e ∈ smp c (fun k => U k ω) 0}
        = U (0 * (Law.pairs c.n c.sl).card + (order c.n c.sl).idxOf e) ⁻¹'
          Set.Iio (c.ens.prob e) := by
      ext ω
      exact (mem_smp hc (fun k => U k ω) 0 e).trans ⟨fun h => h.2, fun h => ⟨he, h⟩⟩
    rw [this]
    exact hU.meas _ measurableSet_Iio
  · simp only [e0]
    exact (C14_sample_law hc c.n c.sl P U hU G hG).1

/-- The mean of a quantity over the samples is its ensemble mean. -/
theorem integral_sample (hU : IsUniform P U) {E : Ens} (hE : E.Coherent) (n : ℕ) (sl : Bool)
    (F : Finset (ℕ × ℕ) → ℝ) :
    Integrable (fun ω => F (E.binary_sample_stream n sl (fun k => U k ω)).toFinset) P ∧
    ∫ ω, F (E.binary_sample_stream n sl (fun k => U k ω)).toFinset ∂P
      = Law.mean (Law.pairs n sl) E.prob F := by
  have := mean_smp hU (c := ⟨E, n, sl⟩) hE F
  simpa only [smp, zero_mul, zero_add] using this

end Averages

/-- **C95**, averages.  Averages of any quantity over the samples of an ensemble converge to its
ensemble mean with probability one. -/
theorem C95_average (c : Call) (q : ℕ × ℕ → ℝ) (hq : c.ens.Is q) (P : Measure Ω) [IsProbabilityMeasure P]
    (U : ℕ → Ω → ℝ) (hU : IsUniform P U) (F : Finset (ℕ × ℕ) → ℝ) :
    ∀ᵐ ω ∂P, Tendsto (fun m : ℕ =>
        ((Call.run (fun _ => c) (fun k => U k ω) m).2.map fun L => F L.toFinset).sum / m)
      atTop (𝓝 (Law.mean (Law.pairs c.n c.sl) q F)) := by
  have hc := hq.coherent
  obtain rfl := hq.prob_eq
  have h := strong_law_ae_real (fun k ω => F (smp c (fun k => U k ω) k)) (mean_smp hU hc F).1
    (fun i j hij => indep_smp hU hc F hij) (fun i => ident_smp hU hc F i)
  rw [(mean_smp hU hc F).2] at h
  simpa only [run_smp] using h

/-- **C95**, averages of the number of edges and of the degrees: they converge to the values returned
by `expected_num_edges` and `expected_degree`. -/
theorem C95_expected (c : Call) (q : ℕ × ℕ → ℝ) (hq : c.ens.Is q) (P : Measure Ω) [IsProbabilityMeasure P]
    (U : ℕ → Ω → ℝ) (hU : IsUniform P U) :
    ∃ (e : ℝ) (dOut dIn d : ℕ → ℝ), c.ens.exp_edges c.n c.sl = fin e ∧
      (∀ i < c.n, (c.ens.exp_degrees c.n c.sl).exp_d_out i = fin (dOut i) ∧
        (c.ens.exp_degrees c.n c.sl).exp_d_in i = fin (dIn i) ∧
        (c.ens.exp_degrees c.n c.sl).exp_d i = fin (d i)) ∧
      ∀ᵐ ω ∂P,
        Tendsto (fun m : ℕ => ((Call.run (fun _ => c) (fun k => U k ω) m).2.map
          fun L => (L.toFinset.card : ℝ)).sum / m) atTop (𝓝 e) ∧
        ∀ i < c.n,
          Tendsto (fun m : ℕ => ((Call.run (fun _ => c) (fun k => U k ω) m).2.map
            fun L => (Law.outDegree L.toFinset i : ℝ)).sum / m) atTop (𝓝 (dOut i)) ∧
          Tendsto (fun m : ℕ => ((Call.run (fun _ => c) (fun k => U k ω) m).2.map
            fun L => (Law.inDegree L.toFinset i : ℝ)).sum / m) atTop (𝓝 (dIn i)) ∧
          Tendsto (fun m : ℕ => ((Call.run (fun _ => c) (fun k => U k ω) m).2.map
            fun L => (Law.degree c.n L.toFinset i : ℝ)).sum / m) atTop (𝓝 (d i)) := by
  have hc := hq.coherent
  obtain rfl := hq.prob_eq
  refine ⟨_, _, _, _, C09_expected_num_edges hc c.n c.sl,
    fun i hi => C10_expected_degrees hc c.n c.sl i hi, ?_⟩
  have h0 := C95_average c _ hq P U hU (fun G => (G.card : ℝ))
  have h1 := fun i => C95_average c _ hq P U hU (fun G => (Law.outDegree G i : ℝ))
  have h2 := fun i => C95_average c _ hq P U hU (fun G => (Law.inDegree G i : ℝ))
  have h3 := fun i => C95_average c _ hq P U hU (fun G => (Law.degree c.n G i : ℝ))
  filter_upwards [h0, ae_all_iff.2 h1, ae_all_iff.2 h2, ae_all_iff.2 h3] with ω g0 g1 g2 g3
  exact ⟨g0, fun i _ => ⟨g1 i, g2 i, g3 i⟩⟩

/-! ## Deviations -/

section Deviations

variable {P : Measure Ω} [IsProbabilityMeasure P] {U : ℕ → Ω → ℝ}

/-- Whether the number drawn for a link is below its probability. -/
private noncomputable def hit (p u : ℝ) : ℝ := open Classical in if u < p then 1 else 0

private theorem measurable_hit (p : ℝ) : Measurable (hit p) := by
  unfold hit
  exact Measurable.ite measurableSet_Iio measurable_const measurable_const

private theorem hit_mem (p u : ℝ) : hit p u ∈ Set.Icc (0 : ℝ) 1 := by
  unfold hit
  split <;> simp

omit [IsProbabilityMeasure P] in
private theorem integral_hit (hU : IsUniform P U) (k : ℕ) {p : ℝ} (h0 : 0 ≤ p) (h1 : p ≤ 1) :
    ∫ ω, hit p (U k ω) ∂P = p := by
  have : (fun ω => hit p (U k ω)) = (U k ⁻¹' Set.Iio p).indicator 1 := by
    funext ω
    unfold hit
    by_cases h : U k ω < p
    · rw [if_pos h, Set.indicator_of_mem (show ω ∈ U k ⁻¹' Set.Iio p from h)]
      rfl
    · rw [if_neg h, Set.indicator_of_notMem (show ω ∉ U k ⁻¹' Set.Iio p from h)]
  rw [this, integral_indicator_one (hU.meas k measurableSet_Iio), Measure.real,
    ← Measure.map_apply (hU.meas k) measurableSet_Iio, hU.law, unif_Iio h1, ENNReal.toReal_ofReal h0]

/-- The links of the first `m` samples within `T`, counted by the comparisons. -/
private theorem card_eq {c : Call} (hc : c.ens.Coherent) {T : Finset (ℕ × ℕ)}
    (hT : T ⊆ Law.pairs c.n c.sl) (u : ℕ → ℝ) (m : ℕ) :
    ∑ k ∈ Finset.range m, ((smp c u k ∩ T).card : ℝ)
      = ∑ x ∈ (Finset.range m) ×ˢ T.attach, hit (c.ens.prob x.2.1)
          (u (x.1 * (Law.pairs c.n c.sl).card + (order c.n c.sl).idxOf x.2.1)) := by
  rw [Finset.sum_product]
  refine Finset.sum_congr rfl fun k _ => ?_
  have h1 : smp c u k ∩ T = T.filter fun e => u (k * (Law.pairs c.n c.sl).card +
      (order c.n c.sl).idxOf e) < c.ens.prob e := by
    ext e
    rw [Finset.mem_inter, mem_smp hc, Finset.mem_filter]
    exact ⟨fun ⟨⟨_, h⟩, h'⟩ => ⟨h', h⟩, fun ⟨h, h'⟩ => ⟨⟨hT h, h'⟩, h⟩⟩
  rw [h1, Finset.card_filter, Finset.sum_attach T (fun e => hit (c.ens.prob e)
    (u (k * (Law.pairs c.n c.sl).card + (order c.n c.sl).idxOf e)))]
  push_cast
  refine Finset.sum_congr rfl fun e _ => ?_
  unfold hit
  rfl

private theorem one_sided (hU : IsUniform P U) {c : Call} (hc : c.ens.Coherent)
    {T : Finset (ℕ × ℕ)} (hT : T ⊆ Law.pairs c.n c.sl) (m : ℕ) {ε : ℝ} (hε : 0 ≤ ε) (σ : ℝ)
    (hσ : σ = 1 ∨ σ = -1) :
    P.real {ω | ε * m ≤ σ * (∑ k ∈ Finset.range m, ((smp c (fun k => U k ω) k ∩ T).card : ℝ)
        - m * ∑ e ∈ T, c.ens.prob e)} ≤ Real.exp (-(2 * m * ε ^ 2) / T.card) := by
  let g : ℕ × {e // e ∈ T} → ℕ := fun x =>
    x.1 * (Law.pairs c.n c.sl).card + (order c.n c.sl).idxOf x.2.1
  have hg : Function.Injective g := by
    rintro ⟨k, e, he⟩ ⟨m, e', he'⟩ h
    have := Call.index_injective (fun _ => c) (k := k) (m := m) (hT he) (hT he')
      (by rw [pos_const, pos_const]; exact h)
    obtain ⟨rfl, rfl⟩ := this
    rfl
  have hV := hU.precomp hg
  let X : ℕ × {e // e ∈ T} → Ω → ℝ := fun x ω =>
    σ * (hit (c.ens.prob x.2.1) (U (g x) ω) - c.ens.prob x.2.1)
  have hi : iIndepFun X P :=
    hV.indep.comp (fun x u => σ * (hit (c.ens.prob x.2.1) u - c.ens.prob x.2.1))
      (fun x => ((measurable_hit _).sub_const _).const_mul _)
  have hsub : ∀ x ∈ (Finset.range m) ×ˢ T.attach, HasSubgaussianMGF (X x) (1 / 4 : ℝ≥0) P := by
    intro x _
    have hp := hc.prob_mem x.2.1
    have h := hasSubgaussianMGF_of_mem_Icc (μ := P) (a := 0) (b := 1)
      (X := fun ω => hit (c.ens.prob x.2.1) (U (g x) ω))
      ((measurable_hit _).comp (hU.meas _)).aemeasurable
      (Eventually.of_forall fun ω => hit_mem _ _)
    rw [integral_hit hU _ hp.1 hp.2] at h
    have e4 : (‖(1 : ℝ) - 0‖₊ / 2) ^ 2 = (1 / 4 : ℝ≥0) := by
      rw [sub_zero, nnnorm_one]
      norm_num
    rw [e4] at h
    rcases hσ with rfl | rfl
    · simpa only [X, one_mul] using h
    · have := h.neg
      simp only [X]
      convert this using 1
      funext ω
      simp
  have key := HasSubgaussianMGF.measure_sum_ge_le_of_iIndepFun hi hsub
    (show 0 ≤ ε * m by positivity)
  have hsum : ∀ ω, ∑ x ∈ (Finset.range m) ×ˢ T.attach, X x ω
      = σ * (∑ k ∈ Finset.range m, ((smp c (fun k => U k ω) k ∩ T).card : ℝ)
        - m * ∑ e ∈ T, c.ens.prob e) := by
    intro ω
    rw [card_eq hc hT]
    simp only [X]
    rw [← Finset.mul_sum, Finset.sum_sub_distrib]
    congr 2
    rw [Finset.sum_product]
    simp only [Finset.sum_attach T (fun e => c.ens.prob e), Finset.sum_const, Finset.card_range,
      nsmul_eq_mul]
  simp only [hsum] at key
  refine key.trans (le_of_eq ?_)
  congr 1
  rw [Finset.sum_const, Finset.card_product, Finset.card_range, Finset.card_attach]
  push_cast
  rcases Nat.eq_zero_or_pos m with rfl | hm
  · simp
  rcases Nat.eq_zero_or_pos T.card with h0 | h0
  · rw [h0]
    simp
  have hm' : (m : ℝ) ≠ 0 := by positivity
  have hT' : (T.card : ℝ) ≠ 0 := by positivity
  simp only [nsmul_eq_mul]
  push_cast
  field_simp
  ring

end Deviations

private theorem deviation (c : Call) (hc : c.ens.Coherent) (P : Measure Ω) [IsProbabilityMeasure P]
    (U : ℕ → Ω → ℝ) (hU : IsUniform P U) (T : Finset (ℕ × ℕ)) (hT : T ⊆ Law.pairs c.n c.sl) (m : ℕ)
    (ε : ℝ) (hε : 0 ≤ ε) :
    P.real {ω | ε * m ≤ |((Call.run (fun _ => c) (fun k => U k ω) m).2.map
        fun L => ((L.toFinset ∩ T).card : ℝ)).sum - m * ∑ e ∈ T, c.ens.prob e|}
      ≤ 2 * Real.exp (-(2 * m * ε ^ 2) / T.card) := by
  have h1 := one_sided hU hc hT m hε 1 (Or.inl rfl)
  have h2 := one_sided hU hc hT m hε (-1) (Or.inr rfl)
  refine (measureReal_mono (μ := P) (s₂ := {ω | ε * m ≤ 1 * (∑ k ∈ Finset.range m,
        ((smp c (fun k => U k ω) k ∩ T).card : ℝ) - m * ∑ e ∈ T, c.ens.prob e)} ∪
      {ω | ε * m ≤ -1 * (∑ k ∈ Finset.range m,
        ((smp c (fun k => U k ω) k ∩ T).card : ℝ) - m * ∑ e ∈ T, c.ens.prob e)}) ?_).trans
    ((measureReal_union_le _ _).trans (by linarith))
  intro ω hω
  have hω' : ε * m ≤ |((Call.run (fun _ => c) (fun k => U k ω) m).2.map
        fun L => ((L.toFinset ∩ T).card : ℝ)).sum - m * ∑ e ∈ T, c.ens.prob e| := hω
  rw [run_smp c (fun k => U k ω) m (fun G => ((G ∩ T).card : ℝ))] at hω'
  rcases le_abs.1 hω' with h | h
  · left
    rw [Set.mem_ofPred_eq, one_mul]
    exact h
  · right
    rw [Set.mem_ofPred_eq, neg_one_mul]
    exact h

/-- **C95**, deviations.  Let `T` be a set of admissible pairs.  The probability that the number of
links within `T`, averaged over `m` samples, deviates by `ε` or more from the sum of their
probabilities is at most `2 exp (-2 m ε² / |T|)`. -/
theorem C95_deviation (c : Call) (q : ℕ × ℕ → ℝ) (hq : c.ens.Is q) (P : Measure Ω) [IsProbabilityMeasure P]
    (U : ℕ → Ω → ℝ) (hU : IsUniform P U) (T : Finset (ℕ × ℕ)) (hT : T ⊆ Law.pairs c.n c.sl) (m : ℕ)
    (ε : ℝ) (hε : 0 ≤ ε) :
    P.real {ω | ε * m ≤ |((Call.run (fun _ => c) (fun k => U k ω) m).2.map
        fun L => ((L.toFinset ∩ T).card : ℝ)).sum - m * ∑ e ∈ T, q e|}
      ≤ 2 * Real.exp (-(2 * m * ε ^ 2) / T.card) := by
  obtain rfl := hq.prob_eq
  exact deviation c hq.coherent P U hU T hT m ε hε

private theorem deviation_le {c : Call} (hc : c.ens.Coherent) {P : Measure Ω} [IsProbabilityMeasure P]
    {U : ℕ → Ω → ℝ} (hU : IsUniform P U) {T : Finset (ℕ × ℕ)} (hT : T ⊆ Law.pairs c.n c.sl) {N : ℕ}
    (hN : T.card ≤ N) (m : ℕ) {ε : ℝ} (hε : 0 ≤ ε) {F : Finset (ℕ × ℕ) → ℝ}
    (hF : ∀ G ⊆ Law.pairs c.n c.sl, F G = ((G ∩ T).card : ℝ)) {e : ℝ}
    (he : e = ∑ e ∈ T, c.ens.prob e) :
    P.real {ω | ε * m ≤ |((Call.run (fun _ => c) (fun k => U k ω) m).2.map
        fun L => F L.toFinset).sum - m * e|} ≤ 2 * Real.exp (-(2 * m * ε ^ 2) / N) := by
  have hsum : ∀ ω, ((Call.run (fun _ => c) (fun k => U k ω) m).2.map fun L => F L.toFinset).sum
      = ((Call.run (fun _ => c) (fun k => U k ω) m).2.map
        fun L => ((L.toFinset ∩ T).card : ℝ)).sum := by
    intro ω
    rw [run_smp, run_smp c (fun k => U k ω) m (fun G => ((G ∩ T).card : ℝ))]
    exact Finset.sum_congr rfl fun k _ => hF _ fun e he => ((mem_smp hc _ k e).1 he).1
  simp only [hsum, he]
  rcases Nat.eq_zero_or_pos T.card with h0 | h0
  · have hT0 : T = ∅ := Finset.card_eq_zero.1 h0
    subst hT0
    simp only [Finset.inter_empty, Finset.card_empty, Nat.cast_zero, List.map_const',
      List.sum_replicate, smul_zero, Finset.sum_empty, mul_zero, sub_zero, abs_zero]
    rcases (show 0 ≤ ε * m by positivity).eq_or_lt with h | h
    · have : 2 * m * ε ^ 2 = 0 := by
        rw [show 2 * (m : ℝ) * ε ^ 2 = 2 * ε * (ε * m) by ring, ← h, mul_zero]
      rw [this]
      simp only [neg_zero, zero_div, Real.exp_zero]
      exact measureReal_le_one.trans (by norm_num)
    · have : {ω : Ω | ε * m ≤ 0} = ∅ := by
        ext ω
        simpa using h
      rw [this, measureReal_empty]
      positivity
  · refine (deviation c hc P U hU T hT m ε hε).trans ?_
    refine mul_le_mul_of_nonneg_left (Real.exp_le_exp.2 ?_) (by norm_num)
    rw [neg_div, neg_div, neg_le_neg_iff]
    exact div_le_div_of_nonneg_left (by positivity) (by positivity) (by exact_mod_cast hN)

/-- **C95**, deviations of the number of edges and of the out- and in-degrees from
`expected_num_edges` and `expected_out_degree`, `expected_in_degree`. -/
theorem C95_deviation_expected (c : Call) (q : ℕ × ℕ → ℝ) (hq : c.ens.Is q) (P : Measure Ω)
    [IsProbabilityMeasure P] (U : ℕ → Ω → ℝ) (hU : IsUniform P U) (m : ℕ) (ε : ℝ) (hε : 0 ≤ ε) :
    ∃ (e : ℝ) (dOut dIn : ℕ → ℝ), c.ens.exp_edges c.n c.sl = fin e ∧
      (∀ i < c.n, (c.ens.exp_degrees c.n c.sl).exp_d_out i = fin (dOut i) ∧
        (c.ens.exp_degrees c.n c.sl).exp_d_in i = fin (dIn i)) ∧
      P.real {ω | ε * m ≤ |((Call.run (fun _ => c) (fun k => U k ω) m).2.map
          fun L => (L.toFinset.card : ℝ)).sum - m * e|}
        ≤ 2 * Real.exp (-(2 * m * ε ^ 2) / (Law.pairs c.n c.sl).card) ∧
      ∀ i < c.n,
        P.real {ω | ε * m ≤ |((Call.run (fun _ => c) (fun k => U k ω) m).2.map
            fun L => (Law.outDegree L.toFinset i : ℝ)).sum - m * dOut i|}
          ≤ 2 * Real.exp (-(2 * m * ε ^ 2) / c.n) ∧
        P.real {ω | ε * m ≤ |((Call.run (fun _ => c) (fun k => U k ω) m).2.map
            fun L => (Law.inDegree L.toFinset i : ℝ)).sum - m * dIn i|}
          ≤ 2 * Real.exp (-(2 * m * ε ^ 2) / c.n) := by
  have hc := hq.coherent
  obtain rfl := hq.prob_eq
  refine ⟨_, _, _, C09_expected_num_edges hc c.n c.sl, fun i hi =>
    ⟨(C10_expected_degrees hc c.n c.sl i hi).1, (C10_expected_degrees hc c.n c.sl i hi).2.1⟩, ?_,
    fun i hi => ⟨?_, ?_⟩⟩
  · exact deviation_le hc hU (T := Law.pairs c.n c.sl) (fun _ h => h) le_rfl m hε
      (F := fun G => (G.card : ℝ))
      (fun G hG => by rw [Finset.inter_eq_left.2 hG]) (Law.mean_card _)
  · refine deviation_le hc hU (T := (Law.pairs c.n c.sl).filter fun e => e.1 = i)
      (Finset.filter_subset _ _) ?_ m hε (F := fun G => (Law.outDegree G i : ℝ)) (fun G hG => ?_) ?_
    · refine (Finset.card_le_card_of_injOn (t := Finset.range c.n) (fun e => e.2) ?_ ?_).trans
        (Finset.card_range c.n).le
      · intro e he
        obtain ⟨h1, _⟩ := Finset.mem_filter.1 he
        obtain ⟨_, h2, _⟩ := Law.mem_pairs.1 (show (e.1, e.2) ∈ Law.pairs c.n c.sl from h1)
        simpa using h2
      · intro e he e' he' h
        exact Prod.ext ((Finset.mem_filter.1 he).2.trans (Finset.mem_filter.1 he').2.symm) h
    · unfold Law.outDegree
      congr 2
      ext e
      simp only [Finset.mem_filter, Finset.mem_inter]
      exact ⟨fun ⟨h1, h2⟩ => ⟨h1, hG h1, h2⟩, fun ⟨h1, _, h2⟩ => ⟨h1, h2⟩⟩
    · unfold Law.outDegree
      exact Law.mean_card_filter _ _
  · refine deviation_le hc hU (T := (Law.pairs c.n c.sl).filter fun e => e.2 = i)
      (Finset.filter_subset _ _) ?_ m hε (F := fun G => (Law.inDegree G i : ℝ)) (fun G hG => ?_) ?_
    · refine (Finset.card_le_card_of_injOn (t := Finset.range c.n) (fun e => e.1) ?_ ?_).trans
        (Finset.card_range c.n).le
      · intro e he
        obtain ⟨h1, _⟩ := Finset.mem_filter.1 he
        obtain ⟨h2, _⟩ := Law.mem_pairs.1 (show (e.1, e.2) ∈ Law.pairs c.n c.sl from h1)
        simpa using h2
      · intro e he e' he' h
        exact Prod.ext h ((Finset.mem_filter.1 he).2.trans (Finset.mem_filter.1 he').2.symm)
    · unfold Law.inDegree
      congr 2
      ext e
      simp only [Finset.mem_filter, Finset.mem_inter]
      exact ⟨fun ⟨h1, h2⟩ => ⟨h1, hG h1, h2⟩, fun ⟨h1, _, h2⟩ => ⟨h1, h2⟩⟩
    · unfold Law.inDegree
      exact Law.mean_card_filter _ _

/-- An ensemble and a generator meeting the hypotheses of C95. -/
example : (Ens.sparseFit 1 (fun _ => 1) (fun _ => 2) (fun _ _ => 1)).Is
      (fun _ => Spec.fitProb (1 * 1 * 2 * 1)) ∧ ({(0, 1), (2, 1)} : Finset (ℕ × ℕ)) ⊆ Law.pairs 3 false ∧
    ∃ (Ω : Type) (_ : MeasurableSpace Ω) (P : Measure Ω) (_ : IsProbabilityMeasure P)
      (U : ℕ → Ω → ℝ), IsUniform P U :=
  ⟨.sparseFit _ _ _ _, by decide, exists_isUniform ℕ⟩

end Verif
