import Verif.Layer.StreamLemmas

/-!
# C104: samples of label-resolved ensembles from one stream of random numbers

`LCall.run c u m` (`Verif/Layer/Stream.lean`): the first `m` of a sequence of calls of
`MultiDiGraphEnsemble.sample`, with or without weights, on one generator.  `LCall.Is`: which ensemble a
call is on.  `LCall.Valid`: the strengths of a weighted call are accepted.
-/

namespace Verif

open XR Spec MeasureTheory ProbabilityTheory Filter Topology RStream
open scoped ENNReal

namespace Layer

/-- Law of the weight of a link of label `k` that has probability `p`: the value one for unweighted
samples, otherwise exponential with mean `s_out i * s_in j / (s_tot * p)` for the strengths of the label,
zero where they are not stored. -/
noncomputable def LCall.weightLaw (c : LCall) (p : ℝ) (k : ℕ) (e : ℕ × ℕ) : Measure ℝ :=
  match c.src with
  | .sparse _ _ (.cremb so si) =>
    expLaw (entry (so k) e.1 * entry (si k) e.2 / (((so k).map Prod.snd).sum * p))
  | _ => Measure.dirac 1

instance (c : LCall) (p : ℝ) (k : ℕ) (e : ℕ × ℕ) : IsProbabilityMeasure (c.weightLaw p k e) := by
  unfold LCall.weightLaw
  split <;> infer_instance

/-- Entries of the samples of a sequence of calls: a call, a label and an admissible pair. -/
abbrev LCall.Ix (c : ℕ → LCall) : Type :=
  Σ t : ℕ, {x : ℕ × (ℕ × ℕ) // x.1 < (c t).L ∧ x.2 ∈ Law.pairs (c t).n (c t).s}

namespace LCall

private noncomputable def real (r : Bool × XR) : Bool × ℝ :=
  if r.1 then (true, r.2.toReal) else (false, 0)

private theorem expLaw_zero : expLaw 0 = Measure.dirac 0 := by
  unfold expLaw
  simp only [zero_mul]
  rw [Measure.map_const, measure_univ, one_smul]

private theorem fresh_weight (c : LCall) (p : ℝ) (k : ℕ) (e : ℕ × ℕ) :
    Fresh (fun u => ((c.weight p k e u).1, (c.weight p k e u).2.toReal)) (c.weightLaw p k e) := by
  unfold weight weightLaw
  cases c.src with
  | dense xs ys => exact fresh_const 1
  | sparse xs ys w =>
    cases w with
    | none => exact fresh_const 1
    | cremb so si =>
      simp only
      have hz : entry (so k) e.1 * entry (si k) e.2 = 0 →
          Fresh (fun _ => (0, XR.toReal (fin 0))) (expLaw (entry (so k) e.1 * entry (si k) e.2 /
            (((so k).map Prod.snd).sum * p))) := by
        intro h
        rw [h, zero_div, expLaw_zero]
        exact fresh_const 0
      cases h1 : (so k).lookup e.1 with
      | none => exact hz (by simp [entry, h1])
      | some a =>
        cases h2 : (si k).lookup e.2 with
        | none => exact hz (by simp [entry, h2])
        | some b =>
          have := fresh_exp (entry (so k) e.1 * entry (si k) e.2 / (((so k).map Prod.snd).sum * p))
          refine (congrArg (fun f => Fresh f _) (funext fun u => ?_)).mp this
          refine Prod.ext rfl ?_
          have ha : entry (so k) e.1 = a := by simp [entry, h1]
          have hb : entry (si k) e.2 = b := by simp [entry, h2]
          simp only [ha, hb, total_eq]
          unfold DiGraphEnsemble.exponential
          rw [fin_mul_fin]
          by_cases h0 : ((so k).map Prod.snd).sum * p = 0
          · have hn : (fin (a * b) / fin (((so k).map Prod.snd).sum * p) : XR) = nan := by
              show (if _ = (0 : ℝ) then nan else _) = nan
              rw [if_pos h0]
            rw [hn, h0, div_zero, zero_mul]
            rfl
          · rw [fin_div_fin _ _ h0, fin_mul_fin, toReal_fin, mul_comm]

private theorem linkLaw_zero (ν : Measure ℝ) : linkLaw 0 ν = Measure.dirac (false, 0) := by
  unfold linkLaw
  simp

private theorem fresh_pair {c : LCall} {K : Kind} {d : ℕ → ℝ≥0∞} {x y : ℕ → ℕ → ℝ≥0∞}
    (h : c.Is K d x y) (k : ℕ) {e : ℕ × ℕ} (he : e ∈ Law.pairs c.n c.s) :
    Fresh (fun u => ((c.pair (denseProb K d x y) k e u).1, real (c.pair (denseProb K d x y) k e u).2))
      (linkLaw (denseProb K d x y k e) (c.weightLaw (denseProb K d x y k e) k e)) := by
  by_cases hv : e ∈ c.visited k
  · have := fresh_link (K.q_mem (d k * x e.1 k * y e.2 k)).1 (K.q_mem _).2
      (fresh_weight c (denseProb K d x y k e) k e)
    refine (congrArg (fun f => Fresh f _) (funext fun u => ?_)).mp this
    unfold pair
    rw [if_pos hv]
    show (if u 0 < denseProb K d x y k e then _ else _) = _
    by_cases hl : u 0 < denseProb K d x y k e
    · simp [hl, real]
    · simp [hl, real]
  · have h0 : denseProb K d x y k e = 0 := h.not_visited he hv
    rw [h0, linkLaw_zero]
    refine (congrArg (fun f => Fresh f _) (funext fun u => ?_)).mp (fresh_const (false, (0 : ℝ)))
    unfold pair
    rw [if_neg hv]
    rfl

end LCall

variable {Ω : Type} [MeasurableSpace Ω]

/-- **C104**, law of the samples.  For every sequence of calls of `sample` on label-resolved ensembles,
the same or different ones, sparse or dense, with or without weights, all reading one stream of random
numbers: with probability one every call returns a graph, and all entries of all layers of all graphs
are independent.  A pair is linked under label `k` with the probability of the model, and the weight of
a link is exponential with mean `s_out i * s_in j / (s_tot * p)` for the strengths of label `k`, or one
if the call is without weights. -/
theorem C104_law (c : ℕ → LCall) (K : ℕ → Kind) (d : ℕ → ℕ → ℝ≥0∞) (x y : ℕ → ℕ → ℕ → ℝ≥0∞)
    (h : ∀ t, (c t).Is (K t) (d t) (x t) (y t))
    (hv : ∀ t, (c t).Valid (denseProb (K t) (d t) (x t) (y t)))
    (P : Measure Ω) (U : ℕ → Ω → ℝ) (hU : IsUniform P U) :
    ∃ S : ℕ → Ω → List (List ((ℕ × ℕ) × XR)),
      (∀ᵐ ω ∂P, ∀ m, (LCall.run c (fun i => U i ω) m).2 = (List.range m).map fun t => .ok (S t ω)) ∧
      (∀ t ω, (S t ω).length = (c t).L ∧ ∀ l ∈ S t ω, (l.map Prod.fst).Nodup ∧
        ∀ r ∈ l, r.1 ∈ Law.pairs (c t).n (c t).s) ∧
      iIndepFun (fun (z : LCall.Ix c) ω => entryOf ((S z.1 ω).getD z.2.1.1 []) z.2.1.2) P ∧
      ∀ t, ∀ k < (c t).L, ∀ e ∈ Law.pairs (c t).n (c t).s,
        Measurable (fun ω => entryOf ((S t ω).getD k []) e) ∧
        P.map (fun ω => entryOf ((S t ω).getD k []) e)
          = linkLaw ((K t).q (d t k * x t e.1 k * y t e.2 k))
            ((c t).weightLaw ((K t).q (d t k * x t e.1 k * y t e.2 k)) k e) := by
  let q : ℕ → ℕ → ℕ × ℕ → ℝ := fun t => denseProb (K t) (d t) (x t) (y t)
  let Sx := LCall.procs c q
  let O : ℕ → List (ℕ × (ℕ × ℕ)) := fun t => (c t).ix
  let S : ℕ → Ω → List (List ((ℕ × ℕ) × XR)) := fun t ω => (List.range (c t).L).map fun k =>
    rowsOf ((c t).all k) fun e => val (proc Sx) (blocks O (t + 1)) (fun i => U i ω) (t, k, e)
  let SR : ℕ → ℕ × (ℕ × ℕ) → (ℕ → ℝ) → ℕ × (Bool × ℝ) := fun t z u => ((Sx t z u).1,
    LCall.real (Sx t z u).2)
  have hval : ∀ t ω k e, k < (c t).L → e ∈ Law.pairs (c t).n (c t).s →
      entryOf ((S t ω).getD k []) e
        = val (proc SR) (blocks O (t + 1)) (fun i => U i ω) (t, k, e) := by
    intro t ω k e hk he
    have hx : ((t, k, e) : ℕ × (ℕ × (ℕ × ℕ))) ∈ blocks O (t + 1) :=
      mem_blocks.2 ⟨Nat.lt_succ_self t, LCall.mem_ix.2 ⟨hk, he⟩⟩
    have hp := val_post (proc Sx) LCall.real (blocks O (t + 1)) (fun i => U i ω) hx
    rw [show val (proc SR) (blocks O (t + 1)) (fun i => U i ω) (t, k, e) = _ from hp]
    have hg : (S t ω).getD k [] = rowsOf ((c t).all k) fun e =>
        val (proc Sx) (blocks O (t + 1)) (fun i => U i ω) (t, k, e) := by
      rw [List.getD_eq_getElem?_getD, List.getElem?_map, List.getElem?_range hk]
      rfl
    rw [hg]
    unfold entryOf
    rw [lookup_rowsOf _ _ (LCall.mem_all.2 he)]
    unfold LCall.real
    cases (val (proc Sx) (blocks O (t + 1)) (fun i => U i ω) (t, k, e)).1 <;> rfl
  let ν : ℕ → ℕ × (ℕ × ℕ) → Measure (Bool × ℝ) := fun t z =>
    linkLaw (q t z.1 z.2) ((c t).weightLaw (q t z.1 z.2) z.1 z.2)
  obtain ⟨hi, hl⟩ := indep_blocks (S := SR) (O := O) (ν := ν)
    (fun t z hz => LCall.fresh_pair (h t) z.1 (LCall.mem_ix.1 hz).2)
    (fun t z hz => linkLaw_univ ((K t).q_mem _).1 ((K t).q_mem _).2 _)
    (fun t => (h t).ix_nodup) hU
    (fun z ω => entryOf ((S z.1 ω).getD z.2.1.1 []) z.2.1.2)
    (fun z ω => hval z.1 ω z.2.1.1 z.2.1.2 (LCall.mem_ix.1 z.2.2).1 (LCall.mem_ix.1 z.2.2).2)
  refine ⟨S, ?_, ?_, ?_, ?_⟩
  · filter_upwards [hU.ae_mem] with ω hω m
    rw [LCall.run_eq c K d x y h hv (fun i => U i ω) (fun i => (hω i).1) m]
  · intro t ω
    refine ⟨by simp [S], fun l hl => ?_⟩
    obtain ⟨k, hk, rfl⟩ := List.mem_map.1 hl
    constructor
    · have : ∀ (v : ℕ × ℕ → Bool × XR) (O : List (ℕ × ℕ)),
          (rowsOf O v).map Prod.fst = O.filter fun e => (v e).1 := by
        intro v O
        unfold rowsOf
        induction O with
        | nil => rfl
        | cons a l ih =>
          rw [List.filterMap_cons, List.filter_cons]
          cases (v a).1 <;> simpa using ih
      rw [this]
      exact ((h t).all_nodup k).filter _
    · intro r hr
      unfold rowsOf at hr
      rw [List.mem_filterMap] at hr
      obtain ⟨a, ha, hr⟩ := hr
      split at hr
      · injection hr with hr
        subst hr
        exact LCall.mem_all.1 ha
      · cases hr
  · exact hi.precomp (g := fun z : LCall.Ix c =>
      (⟨z.1, z.2.1, LCall.mem_ix.2 z.2.2⟩ : Σ t : ℕ, {e // e ∈ O t})) (by
        rintro ⟨t, a, ha⟩ ⟨t', a', ha'⟩ hh
        simp only [Sigma.mk.injEq] at hh
        obtain ⟨rfl, hh⟩ := hh
        obtain rfl := Subtype.mk.inj (eq_of_heq hh)
        rfl)
  · intro t k hk e he
    exact hl ⟨t, (k, e), LCall.mem_ix.2 ⟨hk, he⟩⟩

/-! ## How many random numbers are read -/

open Classical in
/-- **C104**, random numbers read.  A call reads, for each label, one number for every admissible pair
whose properties are both stored and, with weights, one more for every link whose strengths are both
stored. -/
theorem C104_numbers (c : ℕ → LCall) (K : ℕ → Kind) (d : ℕ → ℕ → ℝ≥0∞) (x y : ℕ → ℕ → ℕ → ℝ≥0∞)
    (h : ∀ t, (c t).Is (K t) (d t) (x t) (y t))
    (hv : ∀ t, (c t).Valid (denseProb (K t) (d t) (x t) (y t))) (u : ℕ → ℝ) (hu : ∀ i, 0 ≤ u i)
    (m : ℕ) :
    ∃ S : ℕ → List (List ((ℕ × ℕ) × XR)),
      (LCall.run c u m).2 = (List.range m).map (fun t => .ok (S t)) ∧
      (LCall.run c u m).1 = ∑ t ∈ Finset.range m, ∑ k ∈ Finset.range (c t).L,
        (((Law.pairs (c t).n (c t).s).filter ((c t).Stored k)).card +
          match (c t).src with
          | .sparse _ _ (.cremb so si) => ((S t).getD k []).countP fun r =>
              ((so k).lookup r.1.1).isSome && ((si k).lookup r.1.2).isSome
          | _ => 0) := by
  refine ⟨_, congrArg Prod.snd (LCall.run_eq c K d x y h hv u hu m), ?_⟩
  rw [LCall.run_eq c K d x y h hv u hu m]
  simp only
  set Sx := LCall.procs c fun t => denseProb (K t) (d t) (x t) (y t) with hSx
  induction m with
  | zero => rfl
  | succ m ih =>
    rw [used_blocks_succ, Finset.sum_range_succ, ← ih]
    congr 1
    set v := drop (used (proc Sx) (blocks (fun t => (c t).ix) m) u) u with hvd
    have hcall := LCall.used_call (h m) (denseProb (K m) (d m) (x m) (y m)) v (c m).L
    rw [show used (Sx m) (c m).ix v = _ from hcall]
    refine Finset.sum_congr rfl fun k hk => ?_
    congr 1
    have hk := Finset.mem_range.1 hk
    have hlay : ((List.range (c m).L).map fun k => rowsOf ((c m).all k) fun e =>
        val (proc Sx) (blocks (fun t => (c t).ix) (m + 1)) u (m, k, e)).getD k []
        = (c m).layer (denseProb (K m) (d m) (x m) (y m)) v (c m).L k := by
      rw [List.getD_eq_getElem?_getD, List.getElem?_map, List.getElem?_range hk]
      show rowsOf _ _ = _
      unfold LCall.layer
      refine rowsOf_congr fun e he => ?_
      rw [val_blocks Sx (fun t => (c t).ix) u (Nat.lt_succ_self m)
        (mem_blocks.2 ⟨hk, he⟩ : (k, e) ∈ (c m).ix)]
      rfl
    rw [hlay]
    unfold LCall.draws
    cases (c m).src with
    | dense xs ys => simp
    | sparse xs ys w => cases w <;> simp

/-! ## Exceptions -/

private theorem linkLaw_true (p : ℝ) (ν : Measure ℝ) [IsProbabilityMeasure ν] :
    linkLaw p ν {r | r.1 = true} = ENNReal.ofReal p := by
  have hm : MeasurableSet {r : Bool × ℝ | r.1 = true} :=
    measurable_fst (measurableSet_singleton true)
  rw [linkLaw_apply _ _ hm]
  have : Prod.mk true ⁻¹' {r : Bool × ℝ | r.1 = true} = Set.univ := by ext; simp
  rw [this, measure_univ]
  simp

/-- If a pair that can be linked under a label has exactly one of its strengths stored, a weighted call
raises at least with the probability of the link. -/
theorem C104_lost (c : LCall) (K : Kind) (d : ℕ → ℝ≥0∞) (x y : ℕ → ℕ → ℝ≥0∞) (h : c.Is K d x y)
    (xs ys : ℕ → List (ℕ × XR)) (so si : ℕ → List (ℕ × ℝ)) (hs : c.src = .sparse xs ys (.cremb so si))
    (k : ℕ) (hk : k < c.L) (e : ℕ × ℕ) (he : e ∈ Law.pairs c.n c.s)
    (hl : ((so k).lookup e.1).isSome ≠ ((si k).lookup e.2).isSome)
    (P : Measure Ω) (U : ℕ → Ω → ℝ) (hU : IsUniform P U) :
    ENNReal.ofReal (K.q (d k * x e.1 k * y e.2 k))
      ≤ P {ω | ∃ err, (c.sample fun i => U i ω).2 = .error err} := by
  let q := denseProb K d x y
  have hmem : (k, e) ∈ c.ix := LCall.mem_ix.2 ⟨hk, he⟩
  let SR : ℕ → ℕ × (ℕ × ℕ) → (ℕ → ℝ) → ℕ × (Bool × ℝ) := fun _ z u => ((c.pair q z.1 z.2 u).1,
    LCall.real (c.pair q z.1 z.2 u).2)
  obtain ⟨-, hlaw⟩ := indep_blocks (S := SR) (O := fun _ => c.ix)
    (ν := fun _ z => linkLaw (q z.1 z.2) (c.weightLaw (q z.1 z.2) z.1 z.2))
    (fun _ z hz => LCall.fresh_pair h z.1 (LCall.mem_ix.1 hz).2)
    (fun _ z hz => linkLaw_univ (K.q_mem _).1 (K.q_mem _).2 _) (fun _ => h.ix_nodup) hU
    (fun z ω => val (proc SR) (blocks (fun _ => c.ix) (z.1 + 1)) (fun i => U i ω) (z.1, z.2.1))
    (fun _ _ => rfl)
  obtain ⟨hm, hmap⟩ := hlaw ⟨0, (k, e), hmem⟩
  have hset : MeasurableSet {r : Bool × ℝ | r.1 = true} :=
    measurable_fst (measurableSet_singleton true)
  have hp := congrArg (fun μ => μ {r : Bool × ℝ | r.1 = true}) hmap
  rw [Measure.map_apply hm hset, linkLaw_true] at hp
  rw [show K.q (d k * x e.1 k * y e.2 k) = q k e from rfl, ← hp]
  refine measure_mono fun ω hω => ?_
  rcases LCall.sample_any h hs (fun i => U i ω) with herr | ⟨-, h2⟩
  · exact herr
  · exfalso
    have hω' : (val (proc SR) (blocks (fun _ => c.ix) 1) (fun i => U i ω) (0, k, e)).1 = true := hω
    rw [val_blocks SR (fun _ => c.ix) _ (Nat.lt_succ_self 0) hmem] at hω'
    have h0 : used (proc SR) (blocks (fun _ => c.ix) 0) (fun i => U i ω) = 0 := rfl
    rw [h0, drop_zero] at hω'
    have hpost := val_post (proc (c.pair q)) LCall.real c.ix (fun i => U i ω) hmem
    rw [show val (SR 0) c.ix (fun i => U i ω) (k, e) = _ from hpost] at hω'
    have hlink : (val (proc (c.pair q)) c.ix (fun i => U i ω) (k, e)).1 = true := by
      unfold LCall.real at hω'
      by_contra hn
      rw [if_neg hn] at hω'
      simp at hω'
    refine (h2 k hk).2 (e, (val (proc (c.pair q)) c.ix (fun i => U i ω) (k, e)).2) ?_ hl
    unfold LCall.layer rowsOf
    rw [List.mem_filterMap]
    refine ⟨e, LCall.mem_all.2 he, ?_⟩
    show (if (val (proc (c.pair q)) c.ix (fun i => U i ω) (k, e)).1 = true then _ else _) = _
    rw [if_pos hlink]
    rfl

/-- **C104**, exceptions.  A call returns a graph with probability one exactly when it is unweighted or,
for every label, the sums of the strengths differ by less than a relative `1e-6`, the out strengths do
not sum to zero, and for every pair that can be linked both strengths are stored or neither is. -/
theorem C104_accepted (c : LCall) (K : Kind) (d : ℕ → ℝ≥0∞) (x y : ℕ → ℕ → ℝ≥0∞) (h : c.Is K d x y)
    (P : Measure Ω) (U : ℕ → Ω → ℝ) (hU : IsUniform P U) :
    (∀ᵐ ω ∂P, ∃ S, (c.sample fun i => U i ω).2 = .ok S) ↔
      match c.src with
      | .sparse _ _ (.cremb so si) => ∀ k < c.L, ((so k).map Prod.snd).sum ≠ 0 ∧
          |((so k).map Prod.snd).sum - ((si k).map Prod.snd).sum|
            < 1e-6 * |((so k).map Prod.snd).sum| ∧
          ∀ e ∈ Law.pairs c.n c.s, 0 < K.q (d k * x e.1 k * y e.2 k) →
            ((so k).lookup e.1).isSome = ((si k).lookup e.2).isSome
      | _ => True := by
  show _ ↔ c.Valid (denseProb K d x y)
  constructor
  · intro hae
    have hP : P Set.univ = 1 := by
      have := congrArg (fun μ => μ Set.univ) (hU.law 0)
      rw [Measure.map_apply (hU.meas 0) MeasurableSet.univ, Set.preimage_univ] at this
      rw [this]
      exact measure_univ
    have hne : P ≠ 0 := by
      rintro rfl
      simp at hP
    unfold LCall.Valid
    cases hs : c.src with
    | dense xs ys => trivial
    | sparse xs ys w =>
      cases w with
      | none => trivial
      | cremb so si =>
        simp only
        intro k hk
        have : (ae P).NeBot := ae_neBot.2 hne
        obtain ⟨ω, S, hS⟩ := hae.exists
        have htot : LCall.Totals (so k) (si k) := by
          rcases LCall.sample_any h hs (fun i => U i ω) with ⟨err, herr⟩ | ⟨-, h2⟩
          · rw [herr] at hS
            cases hS
          · exact (h2 k hk).1
        refine ⟨htot.1, htot.2, fun e he hq => ?_⟩
        by_contra hl
        have hb := C104_lost c K d x y h xs ys so si hs k hk e he hl P U hU
        have hz : P {ω | ∃ err, (c.sample fun i => U i ω).2 = .error err} = 0 := by
          have h0 : ∀ᵐ ω ∂P, ¬ ∃ err, (c.sample fun i => U i ω).2 = .error err := by
            filter_upwards [hae] with ω hω
            rintro ⟨err, herr⟩
            obtain ⟨S, hS⟩ := hω
            rw [herr] at hS
            cases hS
          have := ae_iff.1 h0
          simpa using this
        rw [hz, nonpos_iff_eq_zero, ENNReal.ofReal_eq_zero] at hb
        exact absurd hq (not_lt.2 hb)
  · intro hv
    filter_upwards [hU.ae_mem] with ω hω
    rw [LCall.sample_eq h hv _ fun i => (hω i).1]
    exact ⟨_, rfl⟩

/-! ## Averages -/

/-- **C104**, averages of weights.  Over repeated weighted calls on one ensemble, the average of the
total weight of the links of label `k` within any set `T` of admissible pairs converges with probability
one to the sum of `s_out i * s_in j / s_tot` over the pairs of `T` that can be linked. -/
theorem C104_average (c : LCall) (K : Kind) (d : ℕ → ℝ≥0∞) (x y : ℕ → ℕ → ℝ≥0∞) (h : c.Is K d x y)
    (hv : c.Valid (denseProb K d x y)) (xs ys : ℕ → List (ℕ × XR)) (so si : ℕ → List (ℕ × ℝ))
    (hs : c.src = .sparse xs ys (.cremb so si)) (P : Measure Ω) (U : ℕ → Ω → ℝ) (hU : IsUniform P U) :
    ∃ S : ℕ → Ω → List (List ((ℕ × ℕ) × XR)),
      (∀ᵐ ω ∂P, ∀ m, (LCall.run (fun _ => c) (fun i => U i ω) m).2
        = (List.range m).map fun t => .ok (S t ω)) ∧
      ∀ k < c.L, ∀ T ⊆ Law.pairs c.n c.s, ∀ᵐ ω ∂P, Tendsto (fun m : ℕ => (∑ t ∈ Finset.range m, ∑ e ∈ T,
          (entryOf ((S t ω).getD k []) e).2) / m) atTop
        (𝓝 (∑ e ∈ T, if K.q (d k * x e.1 k * y e.2 k) = 0 then 0 else
          entry (so k) e.1 * entry (si k) e.2 / ((so k).map Prod.snd).sum)) := by
  obtain ⟨S, h1, -, h3, h4⟩ := C104_law (fun _ => c) (fun _ => K) (fun _ => d) (fun _ => x) (fun _ => y)
    (fun _ => h) (fun _ => hv) P U hU
  refine ⟨S, h1, fun k hk T hT => ?_⟩
  let q := denseProb K d x y
  have key : ∀ e ∈ T, ∀ᵐ ω ∂P, Tendsto (fun m : ℕ =>
      (∑ t ∈ Finset.range m, (entryOf ((S t ω).getD k []) e).2) / m) atTop
      (𝓝 (if q k e = 0 then 0 else entry (so k) e.1 * entry (si k) e.2 / ((so k).map Prod.snd).sum)) := by
    intro e he
    have he' := hT he
    have hw : c.weightLaw (q k e) k e
        = expLaw (entry (so k) e.1 * entry (si k) e.2 / (((so k).map Prod.snd).sum * q k e)) := by
      unfold LCall.weightLaw
      rw [hs]
    have hint := mean_linkLaw (K.q_mem (d k * x e.1 k * y e.2 k)).1 (c.weightLaw (q k e) k e) (by
      rw [hw]
      exact (mean_expLaw _).1)
    have hmean : ∫ z, z ∂(c.weightLaw (q k e) k e)
        = entry (so k) e.1 * entry (si k) e.2 / (((so k).map Prod.snd).sum * q k e) := by
      rw [hw]
      exact (mean_expLaw _).2
    have hI : ∀ t, Integrable (fun ω => (entryOf ((S t ω).getD k []) e).2) P := by
      intro t
      obtain ⟨m, l⟩ := h4 t k hk e he'
      have hint' := hint.1
      rw [show linkLaw (K.q (d k * x e.1 k * y e.2 k)) (c.weightLaw (q k e) k e) = _ from l.symm] at hint'
      exact (integrable_map_measure (f := fun ω => entryOf ((S t ω).getD k []) e)
        (g := fun z : Bool × ℝ => z.2) measurable_snd.aestronglyMeasurable m.aemeasurable).1 hint'
    have hE : ∫ ω, (entryOf ((S 0 ω).getD k []) e).2 ∂P
        = if q k e = 0 then 0 else entry (so k) e.1 * entry (si k) e.2 / ((so k).map Prod.snd).sum := by
      obtain ⟨m, l⟩ := h4 0 k hk e he'
      have := integral_map (μ := P) (φ := fun ω => entryOf ((S 0 ω).getD k []) e)
        (f := fun z : Bool × ℝ => z.2) m.aemeasurable measurable_snd.aestronglyMeasurable
      rw [← this, l]
      refine hint.2.trans ?_
      rw [hmean]
      show q k e * _ = _
      split
      · next h => rw [h, zero_mul]
      · next h => rw [mul_div_assoc', mul_comm ((so k).map Prod.snd).sum, mul_div_mul_left _ _ h]
    have hind : Pairwise (Function.onFun (fun f g => IndepFun f g P)
        fun t ω => (entryOf ((S t ω).getD k []) e).2) := by
      intro a b hab
      have := h3.indepFun (i := ⟨a, (k, e), hk, he'⟩) (j := ⟨b, (k, e), hk, he'⟩)
        (fun h => hab (congrArg Sigma.fst h))
      exact this.comp measurable_snd measurable_snd
    have hid : ∀ t, IdentDistrib (fun ω => (entryOf ((S t ω).getD k []) e).2)
        (fun ω => (entryOf ((S 0 ω).getD k []) e).2) P P := by
      intro t
      have : IdentDistrib (fun ω => entryOf ((S t ω).getD k []) e)
          (fun ω => entryOf ((S 0 ω).getD k []) e) P P :=
        ⟨(h4 t k hk e he').1.aemeasurable, (h4 0 k hk e he').1.aemeasurable,
          by rw [(h4 t k hk e he').2, (h4 0 k hk e he').2]⟩
      exact this.comp measurable_snd
    rw [← hE]
    exact strong_law_ae_real _ (hI 0) hind hid
  have hall := (ae_ball_iff T.countable_toSet).2 key
  filter_upwards [hall] with ω hω
  have := tendsto_finsetSum T hω
  refine this.congr fun m => ?_
  rw [Finset.sum_comm, Finset.sum_div]

/-! ## The hypotheses can be met -/

private theorem sorted_one (k : ℕ) (a : ℝ≥0∞) : RowSorted [(k, a)] := by
  unfold RowSorted
  simp

/-- Hypotheses of `C104_law`, `C104_numbers` and `C104_average`: a weighted call on a sparse ensemble with
two labels, an unweighted call on it, and a call on a dense ensemble, in turn, and a generator. -/
example : ∃ (c : ℕ → LCall) (K : ℕ → Kind) (d : ℕ → ℕ → ℝ≥0∞) (x y : ℕ → ℕ → ℕ → ℝ≥0∞),
    (∀ t, (c t).Is (K t) (d t) (x t) (y t)) ∧
    (∀ t, (c t).Valid (denseProb (K t) (d t) (x t) (y t))) ∧
    (∃ xs ys so si, (c 0).src = .sparse xs ys (.cremb so si)) ∧
    (∃ xs ys, (c 1).src = .sparse xs ys .none) ∧ (∃ xs ys, (c 2).src = .dense xs ys) ∧ (c 0).L = 2 ∧
    ∃ (Ω : Type) (_ : MeasurableSpace Ω) (P : Measure Ω) (U : ℕ → Ω → ℝ), IsUniform P U := by
  obtain ⟨Ω, m, P, _, U, hU⟩ := exists_isUniform ℕ
  let r : ℕ → List (ℕ × ℝ≥0∞) := fun i => [(i % 2, 1)]
  let src : ℕ → Source := fun t =>
    if t % 3 = 0 then .sparse (fun i => rowX (r i)) (fun i => rowX (r i))
      (.cremb (fun k => [(k, 2)]) (fun k => [(k, 2)]))
    else if t % 3 = 1 then .sparse (fun i => rowX (r i)) (fun i => rowX (r i)) .none
    else .dense (fun i k => ofENN (entry (r i) k)) (fun i k => ofENN (entry (r i) k))
  refine ⟨fun t => ⟨Kind.fit.link.p_ijk, 2, 2, fun _ => ofENN 1, src t, fun _ _ => 0, true⟩,
    fun _ => .fit, fun _ _ => 1, fun _ i k => entry (r i) k, fun _ i k => entry (r i) k,
    fun t => ⟨rfl, rfl, ?_⟩, fun t => ?_, ⟨_, _, _, _, rfl⟩, ⟨_, _, rfl⟩, ⟨_, _, rfl⟩, rfl,
    Ω, m, P, U, hU⟩
  · have : t % 3 = 0 ∨ t % 3 = 1 ∨ t % 3 = 2 := by omega
    rcases this with h | h | h
    · simp only [src, h, if_true]
      exact ⟨r, r, fun i => sorted_one _ _, fun i => sorted_one _ _, rfl, rfl, rfl, rfl⟩
    · simp only [src, h, if_true]
      exact ⟨r, r, fun i => sorted_one _ _, fun i => sorted_one _ _, rfl, rfl, rfl, rfl⟩
    · simp only [src, h]
      exact ⟨rfl, rfl⟩
  · have : t % 3 = 0 ∨ t % 3 = 1 ∨ t % 3 = 2 := by omega
    unfold LCall.Valid
    rcases this with h | h | h
    · simp only [src, h, if_true]
      intro k hk
      refine ⟨by simp, by norm_num, fun e he hq => ?_⟩
      obtain ⟨h1, h2, -⟩ := Law.mem_pairs.1 (show (e.1, e.2) ∈ _ from he)
      have hne : entry (r e.1) k ≠ 0 ∧ entry (r e.2) k ≠ 0 := by
        constructor <;>
        · intro h0
          unfold denseProb at hq
          simp [h0, Kind.q_zero] at hq
      have hr : ∀ i, entry (r i) k ≠ 0 → i < 2 → i = k := by
        intro i hi hlt
        by_contra hik
        apply hi
        have : i % 2 ≠ k := by omega
        have hb : (k == i % 2) = false := by simpa using fun hc : k = i % 2 => this hc.symm
        simp [r, entry, List.lookup_cons, hb]
      rw [hr _ hne.1 h1, hr _ hne.2 h2]
    · simp [src, h]
    · simp [src, h]

end Layer

end Verif
