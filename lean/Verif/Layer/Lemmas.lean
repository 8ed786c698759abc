import Verif.Layer.Model
import Verif.Solver.FitLemmas
import Verif.Ensemble.Props
import Mathlib.Data.List.Lookmap

/-! # Lemmas about the label-resolved loops -/

namespace Verif

noncomputable section

open XR Spec
open scoped ENNReal

namespace Layer

/-- The two families of multi-layer models. -/
inductive Kind where
  | fit | inv

/-- Functions passed to the loops. -/
def Kind.link : Kind → Link
  | .fit => fitLink
  | .inv => invLink

/-- Probability of a labelled link as a function of parameter times properties. -/
def Kind.q : Kind → ℝ≥0∞ → ℝ
  | .fit => fitProb
  | .inv => invProb

theorem Kind.q_mem (K : Kind) (t : ℝ≥0∞) : 0 ≤ K.q t ∧ K.q t ≤ 1 := by
  cases K
  · exact ⟨fitProb_nonneg t, fitProb_le_one t⟩
  · exact ⟨invProb_nonneg t, invProb_le_one t⟩

theorem Kind.q_zero (K : Kind) : K.q 0 = 0 := by
  cases K
  · exact fitProb_zero
  · exact invProb_zero

theorem Kind.q_pos (K : Kind) {t : ℝ≥0∞} (h : t ≠ 0) : 0 < K.q t := by
  cases K
  · exact fitProb_pos h
  · exact invProb_pos h

theorem Kind.p_eq (K : Kind) (d x y : ℝ≥0∞) (w : XR) :
    K.link.p_ijk (ofENN d) (ofENN x) (ofENN y) w = fin (K.q (d * x * y)) := by
  cases K
  · exact dense_fit_p_ij d x y w
  · exact dense_inv_p_ij d x y w

theorem Kind.logp_eq (K : Kind) (d x y : ℝ≥0∞) (w : XR) :
    K.link.logp_ijk (ofENN d) (ofENN x) (ofENN y) w = elog (K.q (d * x * y)) := by
  cases K
  · exact dense_fit_logp d x y w
  · exact dense_inv_logp d x y w

theorem Kind.log1mp_eq (K : Kind) (d x y : ℝ≥0∞) (w : XR) :
    K.link.log1mp_ijk (ofENN d) (ofENN x) (ofENN y) w = elog (1 - K.q (d * x * y)) := by
  cases K
  · exact dense_fit_log1mp d x y w
  · exact dense_inv_log1mp d x y w

/-! ### Columns -/

theorem column_rowX (n : ℕ) (x : ℕ → List (ℕ × ℝ≥0∞)) (k : ℕ) :
    column n (fun i => rowX (x i)) k = rowX (column n x k) := by
  unfold column rowX
  rw [List.map_flatMap]
  congr 1
  funext i
  rw [List.filter_map, List.map_map, List.map_map]
  rfl

theorem lookup_filter_map {α : Type} (r : List (ℕ × α)) (i k : ℕ) :
    ((r.filter (fun e => e.1 == k)).map (fun e => (i, e.2))).lookup i = r.lookup k := by
  induction r with
  | nil => rfl
  | cons e r ih =>
    obtain ⟨a, v⟩ := e
    rw [List.lookup_cons, List.filter_cons]
    by_cases h : a = k
    · subst h; simp [List.lookup_cons]
    · rw [show ((a, v).1 == k) = false from beq_false_of_ne h,
        show (k == a) = false from beq_false_of_ne (Ne.symm h)]
      simpa using ih

theorem lookup_ne {α : Type} (l : List α) (i j : ℕ) (hij : i ≠ j) (f : α → α) :
    (l.map (fun e => (j, f e))).lookup i = none := by
  rw [List.lookup_eq_none_iff]
  intro e he
  obtain ⟨a, -, rfl⟩ := List.mem_map.1 he
  exact bne_iff_ne.2 hij

theorem lookup_column {α : Type} (n : ℕ) (x : ℕ → List (ℕ × α)) (k i : ℕ) :
    (column n x k).lookup i = if i < n then (x i).lookup k else none := by
  induction n with
  | zero => simp [column]
  | succ n ih =>
    have e : column (n + 1) x k = column n x k
        ++ (((x n).filter (fun e => e.1 == k)).map (fun e => (n, e.2))) := by
      unfold column; rw [List.range_succ, List.flatMap_append]; simp
    rw [e, List.lookup_append, ih]
    by_cases h : i = n
    · subst h
      rw [if_neg (lt_irrefl _), if_pos (Nat.lt_succ_self _), lookup_filter_map]; rfl
    · have h2 : (((x n).filter (fun e => e.1 == k)).map (fun e => (n, e.2))).lookup i = none := by
        rw [List.lookup_eq_none_iff]
        intro e he
        obtain ⟨a, -, rfl⟩ := List.mem_map.1 he
        exact bne_iff_ne.2 h
      rw [h2]
      by_cases h3 : i < n
      · rw [if_pos h3, if_pos (by omega)]; simp
      · rw [if_neg h3, if_neg (by omega)]; rfl

theorem entry_column {α : Type} [Zero α] {n i : ℕ} (hi : i < n) (x : ℕ → List (ℕ × α)) (k : ℕ) :
    entry (column n x k) i = entry (x i) k := by
  unfold entry; rw [lookup_column, if_pos hi]

theorem mem_column {α : Type} {n : ℕ} {x : ℕ → List (ℕ × α)} {k : ℕ} {e : ℕ × α} :
    e ∈ column n x k ↔ e.1 < n ∧ (k, e.2) ∈ x e.1 := by
  obtain ⟨i, v⟩ := e
  simp only [column, List.mem_flatMap, List.mem_range, List.mem_map, List.mem_filter,
    Prod.mk.injEq, Prod.exists, beq_iff_eq]
  constructor
  · rintro ⟨a, ha, b, c, ⟨h1, rfl⟩, rfl, rfl⟩; exact ⟨ha, h1⟩
  · rintro ⟨h1, h2⟩; exact ⟨i, h1, k, v, ⟨h2, rfl⟩, rfl, rfl⟩

theorem column_lt {α : Type} {n : ℕ} {x : ℕ → List (ℕ × α)} {k : ℕ} :
    ∀ e ∈ column n x k, e.1 < n := fun _ he => (mem_column.1 he).1

theorem filter_sorted {α : Type} {r : List (ℕ × α)} (h : RowSorted r) (k : ℕ) :
    (r.filter (fun e => e.1 == k)).length ≤ 1 := by
  unfold RowSorted at h
  have h2 := h.filter (fun e => e.1 == k)
  match hl : r.filter (fun e => e.1 == k) with
  | [] => rw [hl]; simp
  | [_] => rw [hl]; simp
  | a :: b :: t =>
    exfalso
    rw [hl, List.pairwise_cons] at h2
    have h3 := h2.1 b (by simp)
    have ha : a ∈ r.filter (fun e => e.1 == k) := by rw [hl]; simp
    have hb : b ∈ r.filter (fun e => e.1 == k) := by rw [hl]; simp
    rw [List.mem_filter, beq_iff_eq] at ha hb
    omega

theorem column_sorted {α : Type} {n : ℕ} {x : ℕ → List (ℕ × α)} (h : ∀ i, RowSorted (x i))
    (k : ℕ) : RowSorted (column n x k) := by
  unfold RowSorted
  induction n with
  | zero => simp [column]
  | succ n ih =>
    have e : column (n + 1) x k = column n x k
        ++ (((x n).filter (fun e => e.1 == k)).map (fun e => (n, e.2))) := by
      unfold column; rw [List.range_succ, List.flatMap_append]; simp
    rw [e, List.pairwise_append]
    refine ⟨ih, ?_, ?_⟩
    · have hl := filter_sorted (h n) k
      rw [List.pairwise_map]
      match h2 : (x n).filter (fun e => e.1 == k) with
      | [] => rw [h2]; exact List.Pairwise.nil
      | [a] => rw [h2]; exact List.pairwise_singleton _ _
      | _ :: _ :: _ => rw [h2] at hl; simp at hl
    · intro a ha b hb
      obtain ⟨c, -, rfl⟩ := List.mem_map.1 hb
      exact column_lt a ha

/-- A sum over the stored entries of a sparse row is the sum over all positions. -/
theorem sum_lookup {A α : Type} [AddCommMonoid A] (g : ℕ → α → A) (n : ℕ) :
    ∀ (r : List (ℕ × α)), RowSorted r → (∀ e ∈ r, e.1 < n) →
      (r.map (fun e => g e.1 e.2)).sum
        = ∑ i ∈ Finset.range n, (r.lookup i).elim 0 (g i)
  | [], _, _ => by simp
  | (k, v) :: r, hs, hn => by
    unfold RowSorted at hs
    rw [List.pairwise_cons] at hs
    rw [List.map_cons, List.sum_cons, sum_lookup g n r hs.2 (fun e he => hn e (by simp [he]))]
    have hk : k ∈ Finset.range n := Finset.mem_range.mpr (hn (k, v) (by simp))
    have h0 : r.lookup k = none := by
      rw [List.lookup_eq_none_iff]
      intro e he
      have := hs.1 e he
      exact bne_iff_ne.mpr (Nat.ne_of_lt this)
    rw [← Finset.add_sum_erase _ _ hk,
      ← Finset.add_sum_erase (a := k) _
        (fun i => (List.lookup i ((k, v) :: r)).elim 0 (g i)) hk]
    rw [h0]
    simp only [List.lookup_cons_self, Option.elim_some, Option.elim_none, zero_add]
    congr 1
    refine Finset.sum_congr rfl (fun i hi => ?_)
    rw [List.lookup_cons, beq_false_of_ne (Finset.ne_of_mem_erase hi)]

/-! ### Edges -/

theorem exp_edges_layer_eq (K : Kind) (d : ℝ≥0∞) {a b : List (ℕ × ℝ≥0∞)} (ha : RowSorted a)
    (hb : RowSorted b) {n : ℕ} (han : ∀ e ∈ a, e.1 < n) (hbn : ∀ e ∈ b, e.1 < n)
    (dyad : ℕ → ℕ → XR) (s : Bool) :
    exp_edges_layer K.link.p_ijk (ofENN d) (rowX a) (rowX b) dyad s
      = fin (∑ e ∈ Law.pairs n s, K.q (d * entry a e.1 * entry b e.2)) := by
  rw [sum_pairs]
  unfold exp_edges_layer rowX
  simp only [List.foldl_map]
  let G : ℕ → ℝ≥0∞ → ℕ → ℝ≥0∞ → ℝ := fun i x j y =>
    if admissible i j s then K.q (d * x * y) else 0
  have inner : ∀ e ∈ a, ∀ c : ℝ,
      b.foldl (fun s' y => if admissible e.1 y.1 s then
        s' + K.link.p_ijk (ofENN d) (ofENN e.2) (ofENN y.2) (dyad e.1 y.1) else s') (fin c)
        = fin (c + ∑ j ∈ Finset.range n, G e.1 e.2 j (entry b j)) := by
    intro e _ c
    rw [Fit.foldl_list_rep fin _ (fun y => G e.1 e.2 y.1 y.2),
      Fit.sum_row (G e.1 e.2) (fun j => by simp [G, K.q_zero]) n b hb hbn]
    intro y _ c
    simp only [G, K.p_eq]
    split_ifs <;> simp
  have h0 : (0 : XR) = fin 0 := rfl
  rw [h0, Fit.foldl_list_rep fin _
    (fun e => ∑ j ∈ Finset.range n, G e.1 e.2 j (entry b j)) a inner 0,
    Fit.sum_row (fun i x => ∑ j ∈ Finset.range n, G i x j (entry b j))
      (fun i => Finset.sum_eq_zero (fun j _ => by simp [G, K.q_zero])) n a ha han, zero_add]

/-! ### Degrees -/

/-- The dictionaries hold the real numbers `g`. -/
def Holds (s : Dicts) (g : ℕ × ℕ → ℝ × ℝ × ℝ) : Prop :=
  ∀ key, ((s.d key).isSome = (s.dOut key).isSome ∧ (s.d key).isSome = (s.dIn key).isSome) ∧
    (s.d key).getD 0 = fin (g key).1 ∧ (s.dOut key).getD 0 = fin (g key).2.1 ∧
    (s.dIn key).getD 0 = fin (g key).2.2

theorem holds_empty : Holds ⟨fun _ => none, fun _ => none, fun _ => none⟩ 0 :=
  fun _ => ⟨⟨rfl, rfl⟩, rfl, rfl, rfl⟩

theorem holds_bump {s : Dicts} {g : ℕ × ℕ → ℝ × ℝ × ℝ} (h : Holds s g) (key : ℕ × ℕ)
    (v vo vi : ℝ) :
    Holds (bump s key (fin v) (fin vo) (fin vi)) (g + Pi.single key (v, vo, vi)) := by
  intro key'
  obtain ⟨⟨h1, h2⟩, h3, h4, h5⟩ := h key'
  by_cases hk : key' = key
  · subst hk
    unfold bump
    cases hd : s.d key' with
    | none =>
      rw [hd] at h1 h2 h3
      have ho : s.dOut key' = none := by
        cases h : s.dOut key' with
        | none => rfl
        | some _ => rw [h] at h1; simp at h1
      have hi : s.dIn key' = none := by
        cases h : s.dIn key' with
        | none => rfl
        | some _ => rw [h] at h2; simp at h2
      rw [ho] at h4
      rw [hi] at h5
      simp only [Option.getD_none, zero_def, fin_inj] at h3 h4 h5
      simp [set, ← h3, ← h4, ← h5]
    | some w =>
      rw [hd] at h1 h2 h3
      obtain ⟨wo, ho⟩ := Option.isSome_iff_exists.1 h1.symm
      obtain ⟨wi, hi⟩ := Option.isSome_iff_exists.1 h2.symm
      rw [ho] at h4
      rw [hi] at h5
      simp only [Option.getD_some] at h3 h4 h5
      simp [inc, hd, ho, hi, h3, h4, h5]
  · have : (bump s key (fin v) (fin vo) (fin vi)).d key' = s.d key' ∧
        (bump s key (fin v) (fin vo) (fin vi)).dOut key' = s.dOut key' ∧
        (bump s key (fin v) (fin vo) (fin vi)).dIn key' = s.dIn key' := by
      unfold bump
      split <;> simp [inc, set, hk]
    rw [this.1, this.2.1, this.2.2]
    simp only [Pi.add_apply, Pi.single_eq_of_ne hk, add_zero]
    exact ⟨⟨h1, h2⟩, h3, h4, h5⟩

theorem foldl_holds {β : Type} (f : Dicts → β → Dicts) (G : β → ℕ × ℕ → ℝ × ℝ × ℝ) :
    ∀ (l : List β), (∀ b ∈ l, ∀ s g, Holds s g → Holds (f s b) (g + G b)) →
      ∀ s g, Holds s g → Holds (l.foldl f s) (g + (l.map G).sum)
  | [], _, s, g, h => by simpa using h
  | b :: l, hf, s, g, h => by
    rw [List.foldl_cons, List.map_cons, List.sum_cons, ← add_assoc]
    exact foldl_holds f G l (fun c hc => hf c (by simp [hc])) _ _ (hf b (by simp) s g h)

/-- What one visit adds. -/
def visit (Q : ℕ → ℕ → ℝ) (s : Bool) (lbl i j : ℕ) : ℕ × ℕ → ℝ × ℝ × ℝ :=
  if i ≠ j then
    Pi.single (i, lbl) (Q i j + Q j i - Q i j * Q j i, Q i j, Q j i) +
      Pi.single (j, lbl) (Q i j + Q j i - Q i j * Q j i, Q j i, Q i j)
  else if s then Pi.single (i, lbl) (Q i i, Q i i, Q i i) else 0

theorem entry_rowX (r : List (ℕ × ℝ≥0∞)) (k : ℕ) : entry (rowX r) k = ofENN (entry r k) := by
  unfold rowX
  induction r with
  | nil => simp [entry]; rfl
  | cons e r ih =>
    obtain ⟨a, v⟩ := e
    rw [List.map_cons, Fit.entry_cons, Fit.entry_cons, ih]; split <;> rfl

theorem lookup_rowX (r : List (ℕ × ℝ≥0∞)) (k : ℕ) :
    (rowX r).lookup k = (r.lookup k).map ofENN := by
  unfold rowX
  induction r with
  | nil => rfl
  | cons e r ih =>
    obtain ⟨a, v⟩ := e
    rw [List.map_cons, List.lookup_cons, List.lookup_cons, ih]
    cases k == a <;> rfl

theorem entry_of_mem {α : Type} [Zero α] {r : List (ℕ × α)} (hr : RowSorted r) {e : ℕ × α}
    (he : e ∈ r) : entry r e.1 = e.2 := by
  induction r with
  | nil => simp at he
  | cons a r ih =>
    unfold RowSorted at hr
    rw [List.pairwise_cons] at hr
    obtain ⟨k, v⟩ := a
    rw [Fit.entry_cons]
    rcases List.mem_cons.1 he with rfl | h
    · simp
    · have := hr.1 e h
      rw [if_neg (by simp at this; omega)]
      exact ih hr.2 h

theorem step_holds (K : Kind) (d : ℝ≥0∞) {a b : List (ℕ × ℝ≥0∞)} (ha : RowSorted a)
    (hb : RowSorted b) (dyad : ℕ → ℕ → XR) (s : Bool) (lbl : ℕ) {x y : ℕ × ℝ≥0∞} (hx : x ∈ a)
    (hy : y ∈ b) (t : Dicts) (g : ℕ × ℕ → ℝ × ℝ × ℝ) (h : Holds t g) :
    Holds (exp_degrees_step K.link.p_ijk (ofENN d) (rowX a) (rowX b) dyad s lbl
        (x.1, ofENN x.2) t (y.1, ofENN y.2))
      (g + visit (fun i j => K.q (d * entry a i * entry b j)) s lbl x.1 y.1) := by
  unfold exp_degrees_step visit
  simp only [entry_rowX, K.p_eq, ← entry_of_mem ha hx, ← entry_of_mem hb hy]
  by_cases hne : x.1 = y.1
  · rw [← hne]
    simp only [ne_eq, not_true_eq_false, if_false]
    cases s
    · simpa using h
    · simp only [if_true]
      exact holds_bump h _ _ _ _
  · rw [if_pos hne, if_pos hne, ← add_assoc]
    have : fin (K.q (d * entry a x.1 * entry b y.1)) + fin (K.q (d * entry a y.1 * entry b x.1))
        - fin (K.q (d * entry a x.1 * entry b y.1)) * fin (K.q (d * entry a y.1 * entry b x.1))
        = fin (K.q (d * entry a x.1 * entry b y.1) + K.q (d * entry a y.1 * entry b x.1)
          - K.q (d * entry a x.1 * entry b y.1) * K.q (d * entry a y.1 * entry b x.1)) := by
      simp
    rw [this]
    exact holds_bump (holds_bump h _ _ _ _) _ _ _ _

theorem spark_step_holds (K : Kind) (d : ℝ≥0∞) {a b : List (ℕ × ℝ≥0∞)} (ha : RowSorted a)
    (hb : RowSorted b) (dyad : ℕ → ℕ → XR) (s : Bool) (lbl : ℕ) {x y : ℕ × ℝ≥0∞} (hx : x ∈ a)
    (hy : y ∈ b) (t : Dicts) (g : ℕ × ℕ → ℝ × ℝ × ℝ) (h : Holds t g) :
    Holds (Spark.exp_degrees_step K.link.p_ijk (ofENN d) (rowX a) (rowX b) dyad s lbl
        (x.1, ofENN x.2) t (y.1, ofENN y.2))
      (g + visit (fun i j => K.q (d * entry a i * entry b j)) s lbl x.1 y.1) := by
  have key := step_holds K d ha hb dyad s lbl hx hy t g h
  convert key using 1
  unfold Spark.exp_degrees_step exp_degrees_step
  simp only [entry_rowX, K.p_eq, lookup_rowX, Option.isSome_map]
  by_cases hboth : ((b.lookup x.1).isSome && (a.lookup y.1).isSome) = true
  · simp only [hboth, if_true]
  · have h0 : K.q (d * entry a y.1 * entry b x.1) = 0 := by
      have : entry a y.1 = 0 ∨ entry b x.1 = 0 := by
        unfold entry
        cases h1 : b.lookup x.1 <;> cases h2 : a.lookup y.1 <;> simp_all
      rcases this with h | h <;> simp [h, K.q_zero]
    simp only [hboth, Bool.false_eq_true, if_false, h0, zero_def]
    simp

end Layer

end

end Verif
