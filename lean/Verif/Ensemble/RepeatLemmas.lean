import Verif.Ensemble.Repeat
import Verif.Ensemble.SampleLemmas
import Verif.Ensemble.SampleProps
import Mathlib.Probability.StrongLaw
import Mathlib.Probability.Moments.SubGaussian

/-! # Successive samples as functions of separate blocks of random numbers -/

namespace Verif

open XR MeasureTheory ProbabilityTheory

namespace Call

/-- The number of random numbers used before call `m`. -/
def pos (c : ℕ → Call) (m : ℕ) : ℕ := ∑ k ∈ Finset.range m, (Law.pairs (c k).n (c k).sl).card

theorem length_order (n : ℕ) (s : Bool) : (order n s).length = (Law.pairs n s).card := by
  rw [← List.toFinset_card_of_nodup (nodup_order n s)]
  congr 1
  ext e
  rw [List.mem_toFinset, mem_order]

theorem sample_fst (c : Call) (u : ℕ → ℝ) : (c.sample u).1 = (Law.pairs c.n c.sl).card := by
  unfold sample DiGraphEnsemble.binary_sample_stream
  rw [foldl_order (fun (st : ℕ × List (ℕ × ℕ)) i j => (st.1 + 1, if ltb (fin (u st.1))
    (c.ens.p_ij c.ens.param (c.ens.prop_out i) (c.ens.prop_in j) (c.ens.prop_dyad i j))
      then st.2 ++ [(i, j)] else st.2))]
  have := stream_fold (fun k e => ltb (fin (u k)) (c.ens.p e.1 e.2)) (order c.n c.sl)
    (nodup_order c.n c.sl) 0 []
  simp only [zero_add, List.nil_append] at this
  unfold Ens.p at this
  rw [this, length_order]

theorem sample_snd (c : Call) (u : ℕ → ℝ) :
    (c.sample u).2 = c.ens.binary_sample_stream c.n c.sl u := rfl

theorem run_eq (c : ℕ → Call) (u : ℕ → ℝ) (m : ℕ) :
    run c u m = (pos c m, (List.range m).map (fun k =>
      (c k).ens.binary_sample_stream (c k).n (c k).sl (fun i => u (pos c k + i)))) := by
  induction m with
  | zero => rfl
  | succ m ih =>
    simp only [run, ih, sample_fst, sample_snd]
    rw [List.range_succ, List.map_append, pos, pos, Finset.sum_range_succ]
    rfl

/-- The links of the `k`-th sample. -/
theorem mem_sample {c : ℕ → Call} {k : ℕ} (hc : (c k).ens.Coherent) (u : ℕ → ℝ) (e : ℕ × ℕ) :
    e ∈ ((c k).ens.binary_sample_stream (c k).n (c k).sl (fun i => u (pos c k + i))).toFinset ↔
      e ∈ Law.pairs (c k).n (c k).sl ∧
        u (pos c k + (order (c k).n (c k).sl).idxOf e) < (c k).ens.prob e := by
  rw [List.mem_toFinset, binary_sample_stream_eq, mem_binary_sample hc]

theorem idx_lt {n : ℕ} {s : Bool} {e : ℕ × ℕ} (he : e ∈ Law.pairs n s) :
    (order n s).idxOf e < (Law.pairs n s).card := by
  rw [← length_order]
  exact List.idxOf_lt_length_of_mem (mem_order.2 he)

theorem pos_mono (c : ℕ → Call) {k m : ℕ} (h : k < m) :
    pos c k + (Law.pairs (c k).n (c k).sl).card ≤ pos c m := by
  unfold pos
  rw [← Finset.sum_range_succ (fun k => (Law.pairs (c k).n (c k).sl).card) k]
  exact Finset.sum_le_sum_of_subset (Finset.range_subset_range.2 h)

/-- No random number is used twice. -/
theorem index_injective (c : ℕ → Call) {k m : ℕ} {e e' : ℕ × ℕ}
    (he : e ∈ Law.pairs (c k).n (c k).sl) (he' : e' ∈ Law.pairs (c m).n (c m).sl)
    (h : pos c k + (order (c k).n (c k).sl).idxOf e = pos c m + (order (c m).n (c m).sl).idxOf e') :
    k = m ∧ e = e' := by
  have h1 := idx_lt he
  have h2 := idx_lt he'
  rcases lt_trichotomy k m with hlt | rfl | hlt
  · have := pos_mono c hlt
    omega
  · refine ⟨rfl, (List.idxOf_inj (mem_order.2 he)).1 ?_⟩
    omega
  · have := pos_mono c hlt
    omega

/-- Index set of the links of the first samples. -/
abbrev Ix (c : ℕ → Call) : Type := Σ k : ℕ, {e // e ∈ Law.pairs (c k).n (c k).sl}

/-- The random number that decides about a link. -/
def at_ (c : ℕ → Call) (x : Ix c) : ℕ := pos c x.1 + (order (c x.1).n (c x.1).sl).idxOf x.2.1

theorem at_injective (c : ℕ → Call) : Function.Injective (at_ c) := by
  rintro ⟨k, e, he⟩ ⟨m, e', he'⟩ h
  obtain ⟨rfl, rfl⟩ := index_injective c he he' h
  rfl

end Call

end Verif
