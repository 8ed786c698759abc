import Verif.Ensemble.LikeLemmas
import Mathlib.Data.List.Nodup

/-! # The samplers as filters of the row-major list of admissible pairs -/

namespace Verif

open XR

/-- The admissible pairs in the order in which the loops visit them. -/
def order (n : ℕ) (s : Bool) : List (ℕ × ℕ) :=
  (List.range n).flatMap (fun i =>
    (List.range n).flatMap (fun j => if admissible i j s then [(i, j)] else []))

theorem mem_order {n : ℕ} {s : Bool} {e : ℕ × ℕ} : e ∈ order n s ↔ e ∈ Law.pairs n s := by
  obtain ⟨i, j⟩ := e
  rw [Law.mem_pairs]
  simp only [order, List.mem_flatMap, List.mem_range]
  constructor
  · rintro ⟨a, ha, b, hb, h⟩
    split at h
    · next hadm =>
      simp only [List.mem_singleton, Prod.mk.injEq] at h
      obtain ⟨rfl, rfl⟩ := h
      exact ⟨ha, hb, admissible_iff.1 hadm⟩
    · simp at h
  · rintro ⟨hi, hj, h⟩
    exact ⟨i, hi, j, hj, by simp [admissible_iff.2 h]⟩

theorem nodup_order (n : ℕ) (s : Bool) : (order n s).Nodup := by
  unfold order
  rw [List.nodup_flatMap]
  refine ⟨fun i _ => ?_, ?_⟩
  · rw [List.nodup_flatMap]
    refine ⟨fun j _ => by split <;> simp, ?_⟩
    refine List.nodup_range.imp (fun {a b} hab => ?_)
    intro e h1 h2
    dsimp only at h1 h2
    split at h1 <;> split at h2 <;> simp_all
  · refine List.nodup_range.imp (fun {a b} hab => ?_)
    intro e h1 h2
    simp only [List.mem_flatMap] at h1 h2
    obtain ⟨j, _, h1⟩ := h1
    obtain ⟨k, _, h2⟩ := h2
    split at h1 <;> split at h2 <;> simp_all

theorem foldl_flatMap {α γ : Type} {σ : Type} (f : σ → γ → σ) (g : α → List γ) (l : List α)
    (s : σ) : (l.flatMap g).foldl f s = l.foldl (fun s a => (g a).foldl f s) s := by
  induction l generalizing s with
  | nil => rfl
  | cons a l ih => simp [List.flatMap_cons, List.foldl_append, ih]

/-- Any nested loop over the admissible pairs is a loop over `order`. -/
theorem foldl_order {σ : Type} (f : σ → ℕ → ℕ → σ) (n : ℕ) (s : Bool) (init : σ) :
    (List.range n).foldl (fun st i => (List.range n).foldl (fun st j =>
        if admissible i j s then f st i j else st) st) init
      = (order n s).foldl (fun st e => f st e.1 e.2) init := by
  unfold order
  rw [foldl_flatMap]
  congr 1
  funext st i
  rw [foldl_flatMap]
  congr 1
  funext st j
  split <;> rfl

theorem foldl_append_if {α γ : Type} (c : α → Bool) (v : α → γ) (l : List α) (init : List γ) :
    l.foldl (fun rows e => if c e then rows ++ [v e] else rows) init
      = init ++ (l.filter c).map v := by
  induction l generalizing init with
  | nil => simp
  | cons a l ih =>
    rw [List.foldl_cons, ih]
    by_cases h : c a = true <;> simp [h]

theorem binary_sample_eq (E : Ens) (n : ℕ) (s : Bool) (u : ℕ → ℕ → ℝ) :
    E.binary_sample n s u
      = (order n s).filter (fun e => ltb (fin (u e.1 e.2)) (E.p e.1 e.2)) := by
  unfold Ens.binary_sample DiGraphEnsemble.binary_sample
  rw [foldl_order (fun rows i j => if ltb (fin (u i j))
    (E.p_ij E.param (E.prop_out i) (E.prop_in j) (E.prop_dyad i j)) then rows ++ [(i, j)] else rows)]
  have := foldl_append_if (fun e : ℕ × ℕ => ltb (fin (u e.1 e.2)) (E.p e.1 e.2)) (fun e => e)
    (order n s) []
  rw [List.nil_append, List.map_id'] at this
  exact this

theorem stream_fold (c : ℕ → ℕ × ℕ → Bool) (l : List (ℕ × ℕ)) (hl : l.Nodup) (k : ℕ)
    (rows : List (ℕ × ℕ)) :
    l.foldl (fun (st : ℕ × List (ℕ × ℕ)) e =>
        (st.1 + 1, if c st.1 e then st.2 ++ [e] else st.2)) (k, rows)
      = (k + l.length, rows ++ l.filter (fun e => c (k + l.idxOf e) e)) := by
  induction l generalizing k rows with
  | nil => simp
  | cons a l ih =>
    rw [List.nodup_cons] at hl
    rw [List.foldl_cons, ih hl.2]
    have hf : l.filter (fun e => c (k + (a :: l).idxOf e) e)
        = l.filter (fun e => c (k + 1 + l.idxOf e) e) := by
      refine List.filter_congr (fun e he => ?_)
      have hne : a ≠ e := fun h => hl.1 (h ▸ he)
      rw [List.idxOf_cons_ne _ hne]
      congr 1; omega
    rw [List.filter_cons, hf]
    simp only [List.idxOf_cons_self, add_zero, List.length_cons]
    refine Prod.ext (by simp; omega) ?_
    by_cases h : c k a = true <;> simp [h]

/-- The stream version uses, for each pair, the draw at the position of the pair. -/
theorem binary_sample_stream_eq (E : Ens) (n : ℕ) (s : Bool) (u : ℕ → ℝ) :
    E.binary_sample_stream n s u
      = E.binary_sample n s (fun i j => u ((order n s).idxOf (i, j))) := by
  rw [binary_sample_eq]
  unfold Ens.binary_sample_stream DiGraphEnsemble.binary_sample_stream
  rw [foldl_order (fun (st : ℕ × List (ℕ × ℕ)) i j => (st.1 + 1, if ltb (fin (u st.1))
    (E.p_ij E.param (E.prop_out i) (E.prop_in j) (E.prop_dyad i j))
      then st.2 ++ [(i, j)] else st.2))]
  have := stream_fold (fun k e => ltb (fin (u k)) (E.p e.1 e.2)) (order n s) (nodup_order n s) 0 []
  simp only [zero_add, List.nil_append] at this
  unfold Ens.p at this
  rw [this]
  rfl

theorem mem_binary_sample {E : Ens} (hE : E.Coherent) {n : ℕ} {s : Bool} {u : ℕ → ℕ → ℝ}
    {e : ℕ × ℕ} :
    e ∈ E.binary_sample n s u ↔ e ∈ Law.pairs n s ∧ u e.1 e.2 < E.prob e := by
  rw [binary_sample_eq, List.mem_filter, mem_order, hE.p_eq]
  simp

theorem npSum_eq (n : ℕ) (a : ℕ → ℝ) :
    DiGraphEnsemble.npSum n a = ∑ i ∈ Finset.range n, a i := by
  unfold DiGraphEnsemble.npSum
  have := foldl_rep (σ := ℝ) (A := ℝ) id (fun s i => s + a i) a n (fun i _ x => rfl) 0
  simpa using this

theorem cremb_sample_eq (E : Ens) (n : ℕ) (s_out s_in : ℕ → ℝ) (s : Bool) (u e : ℕ → ℕ → ℝ) :
    E.cremb_sample n s_out s_in s u e
      = if |1 - (∑ i ∈ Finset.range n, s_in i) / ∑ i ∈ Finset.range n, s_out i| < 1e-6 then
          .ok ((E.binary_sample n s u).map (fun l => (l,
            fin (s_out l.1 * s_in l.2) / (fin (∑ i ∈ Finset.range n, s_out i) * E.p l.1 l.2)
              * fin (e l.1 l.2))))
        else .error .strengthsDiffer := by
  unfold Ens.cremb_sample DiGraphEnsemble.cremb_sample
  rw [binary_sample_eq]
  simp only [npSum_eq]
  congr 1
  congr 1
  rw [foldl_order (fun (rows : List ((ℕ × ℕ) × XR)) i j => if ltb (fin (u i j))
    (E.p_ij E.param (E.prop_out i) (E.prop_in j) (E.prop_dyad i j)) then
      rows ++ [((i, j), fin (s_out i * s_in j) / (fin (∑ i ∈ Finset.range n, s_out i) *
        E.p_ij E.param (E.prop_out i) (E.prop_in j) (E.prop_dyad i j)) * fin (e i j))] else rows)]
  have := foldl_append_if (fun l : ℕ × ℕ => ltb (fin (u l.1 l.2)) (E.p l.1 l.2))
    (fun l : ℕ × ℕ => (l,
            fin (s_out l.1 * s_in l.2) / (fin (∑ i ∈ Finset.range n, s_out i) * E.p l.1 l.2)
              * fin (e l.1 l.2)))
    (order n s) []
  rw [List.nil_append] at this
  exact this

end Verif
