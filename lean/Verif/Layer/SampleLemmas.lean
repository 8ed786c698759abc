import Verif.Layer.LikeLemmas
import Verif.Ensemble.SampleLemmas
import Verif.Uniform

/-! # Samples of all layers -/

namespace Verif

noncomputable section

open XR Spec MeasureTheory ProbabilityTheory
open scoped ENNReal

namespace Layer

/-- Position of the draw for element `e` of list `O k` when the lists are consumed in order. -/
def pos {α : Type} [BEq α] [LawfulBEq α] (O : ℕ → List α) (k : ℕ) (e : α) : ℕ :=
  (∑ m ∈ Finset.range k, (O m).length) + (O k).idxOf e

theorem pos_lt {α : Type} [BEq α] [LawfulBEq α] (O : ℕ → List α) {k : ℕ} {e : α} (he : e ∈ O k) {k' : ℕ}
    (h : k < k') : pos O k e < ∑ m ∈ Finset.range k', (O m).length := by
  have h1 : (O k).idxOf e < (O k).length := List.idxOf_lt_length_iff.2 he
  have h2 : ∑ m ∈ Finset.range (k + 1), (O m).length ≤ ∑ m ∈ Finset.range k', (O m).length :=
    Finset.sum_le_sum_of_subset (Finset.range_subset_range.2 h)
  rw [Finset.sum_range_succ] at h2
  unfold pos; omega

theorem pos_inj {α : Type} [BEq α] [LawfulBEq α] (O : ℕ → List α) {k k' : ℕ} {e e' : α} (he : e ∈ O k)
    (he' : e' ∈ O k') (h : pos O k e = pos O k' e') : k = k' ∧ e = e' := by
  rcases lt_trichotomy k k' with hk | hk | hk
  · have := pos_lt O he hk
    unfold pos at h this; omega
  · subst hk
    refine ⟨rfl, (List.idxOf_inj he).1 ?_⟩
    unfold pos at h; omega
  · have := pos_lt O he' hk
    unfold pos at h this; omega

/-- `stream_fold` for any element type. -/
theorem stream_fold' {α γ : Type} [BEq α] [LawfulBEq α] (c : ℕ → α → Bool) (v : α → γ) (l : List α)
    (hl : l.Nodup) (k : ℕ) (rows : List γ) :
    l.foldl (fun (st : ℕ × List γ) e =>
        (st.1 + 1, if c st.1 e then st.2 ++ [v e] else st.2)) (k, rows)
      = (k + l.length, rows ++ (l.filter (fun e => c (k + l.idxOf e) e)).map v) := by
  induction l generalizing k rows with
  | nil => simp
  | cons a l ih =>
    rw [List.nodup_cons] at hl
    rw [List.foldl_cons, ih hl.2]
    have hf : l.filter (fun e => c (k + (a :: l).idxOf e) e)
        = l.filter (fun e => c (k + 1 + l.idxOf e) e) := by
      refine List.filter_congr (fun e he => ?_)
      have hne : a ≠ e := fun h => hl.1 (h ▸ he)
      rw [List.idxOf_cons_ne _ hne]
      congr 1; omega
    rw [List.filter_cons, hf]
    simp only [List.idxOf_cons_self, add_zero, List.length_cons]
    refine Prod.ext (by simp; omega) ?_
    by_cases h : c k a = true <;> simp [h]

/-- The pairs visited in a layer, in order. -/
def pairOrder {α : Type} (a b : List (ℕ × α)) (s : Bool) : List (ℕ × ℕ) :=
  a.flatMap (fun x => b.flatMap (fun y => if admissible x.1 y.1 s then [(x.1, y.1)] else []))

theorem mem_pairOrder {α : Type} {a b : List (ℕ × α)} {s : Bool} {e : ℕ × ℕ} :
    e ∈ pairOrder a b s ↔
      (∃ x ∈ a, x.1 = e.1) ∧ (∃ y ∈ b, y.1 = e.2) ∧ admissible e.1 e.2 s = true := by
  simp only [pairOrder, List.mem_flatMap]
  constructor
  · rintro ⟨x, hx, y, hy, h⟩
    split at h
    · next hadm =>
      rw [List.mem_singleton] at h
      subst h
      exact ⟨⟨x, hx, rfl⟩, ⟨y, hy, rfl⟩, hadm⟩
    · simp at h
  · rintro ⟨⟨x, hx, h1⟩, ⟨y, hy, h2⟩, h⟩
    exact ⟨x, hx, y, hy, by rw [h1, h2, if_pos h]; simp⟩

theorem nodup_pairOrder {α : Type} {a b : List (ℕ × α)} (ha : RowSorted a) (hb : RowSorted b)
    (s : Bool) : (pairOrder a b s).Nodup := by
  unfold pairOrder
  rw [List.nodup_flatMap]
  refine ⟨fun x _ => ?_, ?_⟩
  · rw [List.nodup_flatMap]
    refine ⟨fun j _ => by split <;> simp, ?_⟩
    refine List.Pairwise.imp (fun {u v} huv => ?_) hb
    intro e h1 h2
    dsimp only at h1 h2
    split at h1 <;> split at h2 <;> simp_all
  · refine List.Pairwise.imp (fun {u v} huv => ?_) ha
    intro e h1 h2
    simp only [List.mem_flatMap] at h1 h2
    obtain ⟨j, _, h1⟩ := h1
    obtain ⟨k, _, h2⟩ := h2
    split at h1 <;> split at h2 <;> simp_all

theorem foldl_pairOrder {α σ : Type} (f : σ → ℕ → ℕ → σ) (a b : List (ℕ × α)) (s : Bool)
    (init : σ) :
    a.foldl (fun st x => b.foldl (fun st y =>
        if admissible x.1 y.1 s then f st x.1 y.1 else st) st) init
      = (pairOrder a b s).foldl (fun st e => f st e.1 e.2) init := by
  unfold pairOrder
  rw [foldl_flatMap]
  congr 1
  funext st i
  rw [foldl_flatMap]
  congr 1
  funext st j
  split <;> rfl

theorem foldl_congr_mem {α σ : Type} (f g : σ → α → σ) (l : List α)
    (h : ∀ a ∈ l, ∀ s, f s a = g s a) (s : σ) : l.foldl f s = l.foldl g s := by
  induction l generalizing s with
  | nil => rfl
  | cons a l ih =>
    rw [List.foldl_cons, List.foldl_cons, h a (by simp), ih (fun b hb => h b (by simp [hb]))]

/-- The layer sampler as a filter. -/
theorem binary_sample_layer_eq (K : Kind) (d : ℝ≥0∞) {a b : List (ℕ × ℝ≥0∞)} (ha : RowSorted a)
    (hb : RowSorted b) (dyad : ℕ → ℕ → XR) (s : Bool) (u : ℕ → ℝ) (c : ℕ) :
    binary_sample_layer_stream K.link.p_ijk (ofENN d) (rowX a) (rowX b) dyad s u c
      = (c + (pairOrder a b s).length, (pairOrder a b s).filter (fun e =>
          decide (u (c + (pairOrder a b s).idxOf e) < K.q (d * entry a e.1 * entry b e.2)))) := by
  unfold binary_sample_layer_stream rowX
  simp only [List.foldl_map]
  have e1 : ∀ st : ℕ × List (ℕ × ℕ), a.foldl (fun st x => b.foldl (fun st y =>
        if admissible x.1 y.1 s then
          (st.1 + 1, if ltb (fin (u st.1))
              (K.link.p_ijk (ofENN d) (ofENN x.2) (ofENN y.2) (dyad x.1 y.1))
            then st.2 ++ [(x.1, y.1)] else st.2)
        else st) st) st
      = a.foldl (fun st x => b.foldl (fun st y =>
        if admissible x.1 y.1 s then
          (st.1 + 1, if decide (u st.1 < K.q (d * entry a x.1 * entry b y.1))
            then st.2 ++ [(x.1, y.1)] else st.2)
        else st) st) st := by
    intro st
    refine foldl_congr_mem _ _ _ (fun x hx st => ?_) st
    refine foldl_congr_mem _ _ _ (fun y hy st => ?_) st
    rw [K.p_eq, entry_of_mem ha hx, entry_of_mem hb hy]
    simp only [ltb_fin_fin]
    rfl
  rw [e1, foldl_pairOrder (fun (st : ℕ × List (ℕ × ℕ)) i j =>
      (st.1 + 1, if decide (u st.1 < K.q (d * entry a i * entry b j))
            then st.2 ++ [(i, j)] else st.2)) a b s,
    stream_fold' (fun k e => decide (u k < K.q (d * entry a e.1 * entry b e.2))) (fun e => e) _
      (nodup_pairOrder ha hb s)]
  simp

theorem sample_stream_eq (K : Kind) (n L : ℕ) (d : ℕ → ℝ≥0∞) (x y : ℕ → List (ℕ × ℝ≥0∞))
    (hx : ∀ i, RowSorted (x i)) (hy : ∀ i, RowSorted (y i)) (dyad : ℕ → ℕ → XR) (s : Bool)
    (u : ℕ → ℝ) :
    let O := fun k => pairOrder (column n x k) (column n y k) s
    sample_stream K.link.p_ijk n L (fun k => ofENN (d k)) (fun i => rowX (x i))
        (fun i => rowX (y i)) dyad s u
      = (∑ m ∈ Finset.range L, (O m).length, (List.range L).map (fun k => (O k).filter (fun e =>
          decide (u (pos O k e) < K.q (d k * entry (column n x k) e.1 * entry (column n y k) e.2))))) := by
  dsimp only
  unfold sample_stream
  induction L with
  | zero => simp
  | succ L ih =>
    rw [List.range_succ, List.foldl_append, ih]
    simp only [List.foldl_cons, List.foldl_nil]
    rw [column_rowX, column_rowX,
      binary_sample_layer_eq K (d L) (column_sorted hx L) (column_sorted hy L)]
    simp only [List.map_append, List.map_cons, List.map_nil, Finset.sum_range_succ]
    rfl

/-- The dense sampler as a filter. -/
theorem dense_stream_eq (K : Kind) (n L : ℕ) (d : ℕ → ℝ≥0∞) (x y : ℕ → ℕ → ℝ≥0∞)
    (dyad : ℕ → ℕ → XR) (s : Bool) (u : ℕ → ℝ) :
    Dense.binary_sample_tensor_stream K.link.p_ijk n L (fun k => ofENN (d k))
        (fun i k => ofENN (x i k)) (fun i k => ofENN (y i k)) dyad s u
      = (∑ _m ∈ Finset.range L, (order n s).length, (List.range L).flatMap (fun k =>
          ((order n s).filter (fun e =>
          decide (u (pos (fun _ => order n s) k e) < K.q (d k * x e.1 k * y e.2 k)))).map
            (fun e => (k, e.1, e.2)))) := by
  unfold Dense.binary_sample_tensor_stream
  induction L with
  | zero => simp
  | succ L ih =>
    rw [List.range_succ, List.foldl_append, ih]
    simp only [List.foldl_cons, List.foldl_nil, K.p_eq, ltb_fin_fin]
    rw [foldl_order (fun (st : ℕ × List (ℕ × ℕ × ℕ)) i j =>
      (st.1 + 1, if decide (u st.1 < K.q (d L * x i L * y j L))
            then st.2 ++ [(L, i, j)] else st.2)) n s,
      stream_fold' (fun k e => decide (u k < K.q (d L * x e.1 L * y e.2 L)))
        (fun e => (L, e.1, e.2)) _ (nodup_order n s)]
    simp only [List.flatMap_append, List.flatMap_cons, List.flatMap_nil, List.append_nil,
      Finset.sum_range_succ]
    rfl

/-! ### Weighted samples -/

theorem foldlM_flatMap {α γ ε σ : Type} (f : σ → γ → Except ε σ) (g : α → List γ) (l : List α)
    (s : σ) : (l.flatMap g).foldlM f s = l.foldlM (fun s a => (g a).foldlM f s) s := by
  induction l generalizing s with
  | nil => rfl
  | cons a l ih =>
    rw [List.flatMap_cons, List.foldlM_append, List.foldlM_cons]
    congr 1
    funext s
    exact ih s

theorem foldlM_pairOrder {α ε σ : Type} (f : σ → ℕ → ℕ → Except ε σ) (a b : List (ℕ × α)) (s : Bool)
    (init : σ) :
    a.foldlM (fun st x => b.foldlM (fun st y =>
        if admissible x.1 y.1 s then f st x.1 y.1 else .ok st) st) init
      = (pairOrder a b s).foldlM (fun st e => f st e.1 e.2) init := by
  unfold pairOrder
  rw [foldlM_flatMap]
  congr 1
  funext st i
  rw [foldlM_flatMap]
  congr 1
  funext st j
  split
  · simp only [List.foldlM_cons, List.foldlM_nil]
    cases f st i.1 j.1 <;> rfl
  · rfl

theorem foldlM_congr_mem {α ε σ : Type} (f g : σ → α → Except ε σ) (l : List α)
    (h : ∀ a ∈ l, ∀ s, f s a = g s a) (s : σ) : l.foldlM f s = l.foldlM g s := by
  induction l generalizing s with
  | nil => rfl
  | cons a l ih =>
    rw [List.foldlM_cons, List.foldlM_cons, h a (by simp)]
    congr 1
    funext s
    exact ih (fun b hb => h b (by simp [hb])) s

open Classical in
theorem foldlM_weights {α γ ε : Type} (c : α → Bool) (bad : α → Prop)
    [DecidablePred bad] (err : ε) (v : α → γ)
    (l : List α) (init : List γ) :
    l.foldlM (fun rows e => if c e then
        (if bad e then (.error err : Except ε γ) else .ok (v e)).map (fun w => rows ++ [w])
      else .ok rows) init
      = if ∃ e ∈ l, c e = true ∧ bad e then .error err
        else .ok (init ++ (l.filter c).map v) := by
  induction l generalizing init with
  | nil => simp [pure, Except.pure]
  | cons a l ih =>
    rw [List.foldlM_cons]
    by_cases hc : c a = true
    · rw [if_pos hc]
      by_cases hb : bad a
      · rw [if_pos hb, if_pos ⟨a, by simp, hc, hb⟩]; rfl
      · rw [if_neg hb]
        show l.foldlM _ (init ++ [v a]) = _
        rw [ih]
        by_cases hl : ∃ e ∈ l, c e = true ∧ bad e
        · rw [if_pos hl, if_pos]
          obtain ⟨e, he, h⟩ := hl
          exact ⟨e, by simp [he], h⟩
        · rw [if_neg hl, if_neg]
          · simp [hc]
          · rintro ⟨e, he, h⟩
            rcases List.mem_cons.1 he with rfl | he
            · exact hb h.2
            · exact hl ⟨e, he, h⟩
    · rw [if_neg hc]
      show l.foldlM _ init = _
      rw [ih]
      by_cases hl : ∃ e ∈ l, c e = true ∧ bad e
      · rw [if_pos hl, if_pos]
        obtain ⟨e, he, h⟩ := hl
        exact ⟨e, by simp [he], h⟩
      · rw [if_neg hl, if_neg]
        · simp [hc]
        · rintro ⟨e, he, h⟩
          rcases List.mem_cons.1 he with rfl | he
          · exact hc h.1
          · exact hl ⟨e, he, h⟩

theorem total_eq (s : List (ℕ × ℝ)) : total s = (s.map Prod.snd).sum := by
  unfold total
  rw [List.sum_eq_foldl]

open Classical in
theorem cremb_layer_eq (K : Kind) (d : ℝ≥0∞) {a b : List (ℕ × ℝ≥0∞)} (ha : RowSorted a)
    (hb : RowSorted b) (dyad : ℕ → ℕ → XR) (s_out s_in : List (ℕ × ℝ)) (s : Bool)
    (u e : ℕ → ℕ → ℝ) (hu : ∀ i j, 0 ≤ u i j) :
    cremb_sample_layer K.link.p_ijk (ofENN d) (rowX a) (rowX b) dyad s_out s_in s u e
      = if |1 - total s_in / total s_out| < 1e-6 then
          (if ∃ l ∈ pairOrder a b s, decide (u l.1 l.2 < K.q (d * entry a l.1 * entry b l.2)) = true
              ∧ (s_out.lookup l.1).isSome ≠ (s_in.lookup l.2).isSome then .error .emptySelection
          else .ok (((pairOrder a b s).filter (fun l =>
            decide (u l.1 l.2 < K.q (d * entry a l.1 * entry b l.2)))).map (fun l => (l,
              fin (entry s_out l.1 * entry s_in l.2 / (total s_out * K.q (d * entry a l.1 * entry b l.2))
                * e l.1 l.2)))))
        else .error .strengthsDiffer := by
  unfold cremb_sample_layer
  split
  · next htol =>
    have htot : total s_out ≠ 0 := by
      intro h0
      rw [h0] at htol
      norm_num at htol
    unfold rowX
    simp only [List.foldlM_map]
    rw [foldlM_congr_mem _ (fun rows x => b.foldlM (fun rows y =>
        if admissible x.1 y.1 s then
          (if decide (u x.1 y.1 < K.q (d * entry a x.1 * entry b y.1)) then
            (if (s_out.lookup x.1).isSome ≠ (s_in.lookup y.1).isSome
              then (.error .emptySelection : Except CrembErr ((ℕ × ℕ) × XR))
              else .ok ((x.1, y.1), fin (entry s_out x.1 * entry s_in y.1 /
                (total s_out * K.q (d * entry a x.1 * entry b y.1)) * e x.1 y.1))).map
              (fun w => rows ++ [w])
          else .ok rows)
        else .ok rows) rows) a, foldlM_pairOrder (fun (rows : List ((ℕ × ℕ) × XR)) i j =>
          (if decide (u i j < K.q (d * entry a i * entry b j)) then
            (if (s_out.lookup i).isSome ≠ (s_in.lookup j).isSome
              then (.error .emptySelection : Except CrembErr ((ℕ × ℕ) × XR))
              else .ok ((i, j), fin (entry s_out i * entry s_in j /
                (total s_out * K.q (d * entry a i * entry b j)) * e i j))).map
              (fun w => rows ++ [w])
          else .ok rows)) a b s]
    · have := foldlM_weights (fun l : ℕ × ℕ => decide (u l.1 l.2 < K.q (d * entry a l.1 * entry b l.2)))
        (fun l => (s_out.lookup l.1).isSome ≠ (s_in.lookup l.2).isSome) CrembErr.emptySelection
        (fun l => (l, fin (entry s_out l.1 * entry s_in l.2 /
          (total s_out * K.q (d * entry a l.1 * entry b l.2)) * e l.1 l.2)))
        (pairOrder a b s) []
      rw [List.nil_append] at this
      exact this
    · intro x hx rows
      refine foldlM_congr_mem _ _ _ (fun y hy rows => ?_) rows
      rw [K.p_eq, entry_of_mem ha hx, entry_of_mem hb hy]
      by_cases hadm : admissible x.1 y.1 s = true
      · rw [if_pos hadm, if_pos hadm]
        by_cases hlt : u x.1 y.1 < K.q (d * x.2 * y.2)
        · have hq : K.q (d * x.2 * y.2) ≠ 0 := (lt_of_le_of_lt (hu _ _) hlt).ne'
          simp only [ltb_fin_fin, hlt, decide_true, if_true]
          unfold crembWeight
          cases h1 : s_out.lookup x.1 with
          | none =>
            cases h2 : s_in.lookup y.1 with
            | none => simp [entry, h1, h2]; rfl
            | some w2 => simp; rfl
          | some w1 =>
            cases h2 : s_in.lookup y.1 with
            | none => simp; rfl
            | some w2 =>
              simp only [entry, h1, h2, Option.isSome_some, Bool.or_self, if_true, ne_eq,
                not_true_eq_false, if_false, Option.getD_some]
              rw [fin_mul_fin, fin_div_fin _ _ (mul_ne_zero htot hq), fin_mul_fin]
              rfl
        · simp only [ltb_fin_fin, hlt, decide_false, Bool.false_eq_true, if_false]
      · rw [if_neg hadm, if_neg hadm]
  · rfl

/-! ### Laws -/

/-- Joint law of the layers. -/
theorem layers_law {Ω : Type} [MeasurableSpace Ω] {P : Measure Ω} {U : ℕ → Ω → ℝ}
    (hU : IsUniform P U) (O : ℕ → List (ℕ × ℕ)) (q : ℕ → ℕ × ℕ → ℝ)
    (hq : ∀ k e, 0 ≤ q k e ∧ q k e ≤ 1) (L : ℕ) (G : ℕ → Finset (ℕ × ℕ)) :
    P {ω | ∀ k < L, ∀ e ∈ O k, U (pos O k e) ω < q k e ↔ e ∈ G k}
      = ENNReal.ofReal (∏ k ∈ Finset.range L, ∏ e ∈ (O k).toFinset,
          if e ∈ G k then q k e else 1 - q k e) := by
  let S : Finset (Σ _ : ℕ, ℕ × ℕ) := (Finset.range L).sigma (fun k => (O k).toFinset)
  have hS : ∀ a : Σ _ : ℕ, ℕ × ℕ, a ∈ S ↔ a.1 < L ∧ a.2 ∈ O a.1 := fun a => by
    simp [S, Finset.mem_sigma]
  let f : {a // a ∈ S} → ℕ := fun a => pos O a.1.1 a.1.2
  have hf : Function.Injective f := by
    rintro ⟨⟨k, e⟩, ha⟩ ⟨⟨k', e'⟩, hb⟩ hab
    obtain ⟨rfl, rfl⟩ := pos_inj O ((hS _).1 ha).2 ((hS _).1 hb).2 hab
    rfl
  have hbox := (hU.precomp hf).measure_box Finset.univ (fun a => q a.1.1 a.1.2)
    (fun a _ => hq _ _) (fun a => a.1.2 ∈ G a.1.1)
  have hset : {ω | ∀ k < L, ∀ e ∈ O k, U (pos O k e) ω < q k e ↔ e ∈ G k}
      = {ω | ∀ a ∈ (Finset.univ : Finset {a // a ∈ S}),
          U (f a) ω < q a.1.1 a.1.2 ↔ a.1.2 ∈ G a.1.1} := by
    ext ω
    exact ⟨fun h a _ => h a.1.1 ((hS _).1 a.2).1 a.1.2 ((hS _).1 a.2).2,
      fun h k hk e he => h ⟨⟨k, e⟩, (hS _).2 ⟨hk, he⟩⟩ (Finset.mem_univ _)⟩
  rw [hset, hbox]
  congr 1
  rw [Finset.prod_sigma']
  exact Finset.prod_attach S (fun a => if a.2 ∈ G a.1 then q a.1 a.2 else 1 - q a.1 a.2)

/-- Law of the union of the layers. -/
theorem union_law {Ω : Type} [MeasurableSpace Ω] {P : Measure Ω} {U : ℕ → Ω → ℝ}
    (hU : IsUniform P U) (O : ℕ → List (ℕ × ℕ)) (q : ℕ → ℕ × ℕ → ℝ)
    (hq : ∀ k e, 0 ≤ q k e ∧ q k e ≤ 1) (L : ℕ) (G : Finset (ℕ × ℕ)) (S : Finset (ℕ × ℕ)) :
    P {ω | ∀ e ∈ S, (∃ k < L, e ∈ O k ∧ U (pos O k e) ω < q k e) ↔ e ∈ G}
      = ENNReal.ofReal (∏ e ∈ S,
          if e ∈ G then 1 - ∏ k ∈ (Finset.range L).filter (fun k => e ∈ O k), (1 - q k e)
          else ∏ k ∈ (Finset.range L).filter (fun k => e ∈ O k), (1 - q k e)) := by
  have hone : P Set.univ = 1 := by
    have := hU.measure_box ∅ (fun _ => 0) (by simp) (fun _ => True)
    simpa using this
  have : IsProbabilityMeasure P := ⟨hone⟩
  -- one pair
  have hnone : ∀ e, P {ω | ¬ ∃ k < L, e ∈ O k ∧ U (pos O k e) ω < q k e}
      = ENNReal.ofReal (∏ k ∈ (Finset.range L).filter (fun k => e ∈ O k), (1 - q k e)) := by
    intro e
    let T := (Finset.range L).filter (fun k => e ∈ O k)
    have hT : ∀ k, k ∈ T ↔ k < L ∧ e ∈ O k := fun k => by simp [T]
    let f : {k // k ∈ T} → ℕ := fun k => pos O k.1 e
    have hf : Function.Injective f := fun a b hab =>
      Subtype.ext (pos_inj O ((hT _).1 a.2).2 ((hT _).1 b.2).2 hab).1
    have hbox := (hU.precomp hf).measure_box Finset.univ (fun a => q a.1 e)
      (fun a _ => hq _ _) (fun _ => False)
    have hset : {ω | ¬ ∃ k < L, e ∈ O k ∧ U (pos O k e) ω < q k e}
        = {ω | ∀ a ∈ (Finset.univ : Finset {k // k ∈ T}), U (f a) ω < q a.1 e ↔ False} := by
      ext ω
      simp only [Set.mem_ofPred_eq, iff_false]
      constructor
      · intro h a _ hc
        exact h ⟨a.1, ((hT _).1 a.2).1, ((hT _).1 a.2).2, hc⟩
      · rintro h ⟨k, hk, he, hc⟩
        exact h ⟨k, (hT _).2 ⟨hk, he⟩⟩ (Finset.mem_univ _) hc
    rw [hset, hbox]
    congr 1
    simp only [if_false]
    exact Finset.prod_attach T (fun k => 1 - q k e)
  have hprod : ∀ e, 0 ≤ ∏ k ∈ (Finset.range L).filter (fun k => e ∈ O k), (1 - q k e) ∧
      ∏ k ∈ (Finset.range L).filter (fun k => e ∈ O k), (1 - q k e) ≤ 1 := fun e =>
    ⟨Finset.prod_nonneg (fun k _ => by linarith [(hq k e).2]),
      Finset.prod_le_one (fun k _ => by linarith [(hq k e).2]) (fun k _ => by linarith [(hq k e).1])⟩
  let m : ℕ → MeasurableSpace Ω := fun i => MeasurableSpace.comap (U i) inferInstance
  have hm_le : ∀ i, m i ≤ ‹MeasurableSpace Ω› := fun i => (hU.meas i).comap_le
  have hind : iIndep m P := hU.indep
  -- measurability of the event of one pair with respect to its draws
  let I : ℕ × ℕ → Set ℕ := fun e => {i | ∃ k < L, e ∈ O k ∧ i = pos O k e}
  have hmeas : ∀ e, MeasurableSet[⨆ i ∈ I e, m i]
      {ω | (∃ k < L, e ∈ O k ∧ U (pos O k e) ω < q k e)} := by
    intro e
    have : {ω | (∃ k < L, e ∈ O k ∧ U (pos O k e) ω < q k e)}
        = ⋃ k ∈ {k | k < L ∧ e ∈ O k}, U (pos O k e) ⁻¹' Set.Iio (q k e) := by
      ext ω; simp [and_assoc]
    rw [this]
    refine MeasurableSet.biUnion (Set.to_countable _) (fun k hk => ?_)
    have hi : pos O k e ∈ I e := ⟨k, hk.1, hk.2, rfl⟩
    exact (le_iSup₂ (f := fun i (_ : i ∈ I e) => m i) (pos O k e) hi) _
      ⟨Set.Iio (q k e), measurableSet_Iio, rfl⟩
  have hmeas2 : ∀ e, MeasurableSet[⨆ i ∈ I e, m i]
      {ω | (∃ k < L, e ∈ O k ∧ U (pos O k e) ω < q k e) ↔ e ∈ G} := by
    intro e
    by_cases hG : e ∈ G
    · simpa [hG] using hmeas e
    · have : {ω | (∃ k < L, e ∈ O k ∧ U (pos O k e) ω < q k e) ↔ e ∈ G}
          = {ω | (∃ k < L, e ∈ O k ∧ U (pos O k e) ω < q k e)}ᶜ := by
        ext ω; simp only [hG, iff_false]; rfl
      rw [this]
      exact (hmeas e).compl
  have hle : ∀ T : Set ℕ, (⨆ i ∈ T, m i) ≤ ‹MeasurableSpace Ω› := fun T =>
    iSup₂_le (fun i _ => hm_le i)
  have hsingle : ∀ e, P {ω | (∃ k < L, e ∈ O k ∧ U (pos O k e) ω < q k e) ↔ e ∈ G}
      = ENNReal.ofReal (if e ∈ G then
          1 - ∏ k ∈ (Finset.range L).filter (fun k => e ∈ O k), (1 - q k e)
          else ∏ k ∈ (Finset.range L).filter (fun k => e ∈ O k), (1 - q k e)) := by
    intro e
    by_cases hG : e ∈ G
    · simp only [hG, iff_true, if_true]
      have hc : {ω | (∃ k < L, e ∈ O k ∧ U (pos O k e) ω < q k e)}
          = {ω | ¬ ∃ k < L, e ∈ O k ∧ U (pos O k e) ω < q k e}ᶜ := by
        ext ω; simp
      rw [hc, measure_compl _ (measure_ne_top P _), hone, hnone,
        ENNReal.ofReal_sub _ (hprod e).1, ENNReal.ofReal_one]
      have : {ω | ¬ ∃ k < L, e ∈ O k ∧ U (pos O k e) ω < q k e}
        = {ω | (∃ k < L, e ∈ O k ∧ U (pos O k e) ω < q k e)}ᶜ := rfl
      rw [this]
      exact ((hle _) _ (hmeas e)).compl
    · simp only [hG, iff_false, if_false]
      exact hnone e
  -- induction on the set of pairs
  let J : Finset (ℕ × ℕ) → Set ℕ := fun S => {i | ∃ e ∈ S, i ∈ I e}
  have hmS : ∀ S : Finset (ℕ × ℕ), MeasurableSet[⨆ i ∈ J S, m i]
      {ω | ∀ e ∈ S, (∃ k < L, e ∈ O k ∧ U (pos O k e) ω < q k e) ↔ e ∈ G} := by
    intro S
    have : {ω | ∀ e ∈ S, (∃ k < L, e ∈ O k ∧ U (pos O k e) ω < q k e) ↔ e ∈ G}
        = ⋂ e ∈ S, {ω | (∃ k < L, e ∈ O k ∧ U (pos O k e) ω < q k e) ↔ e ∈ G} := by
      ext ω; simp
    rw [this]
    refine Finset.measurableSet_biInter S (fun e he => ?_)
    refine (?_ : (⨆ i ∈ I e, m i) ≤ ⨆ i ∈ J S, m i) _ (hmeas2 e)
    exact iSup₂_le (fun i hi => le_iSup₂ (f := fun i (_ : i ∈ J S) => m i) i ⟨e, he, hi⟩)
  induction S using Finset.induction_on with
  | empty => simp
  | insert e S he ih =>
    have hsplit : {ω | ∀ f ∈ insert e S, (∃ k < L, f ∈ O k ∧ U (pos O k f) ω < q k f) ↔ f ∈ G}
        = {ω | (∃ k < L, e ∈ O k ∧ U (pos O k e) ω < q k e) ↔ e ∈ G}
          ∩ {ω | ∀ f ∈ S, (∃ k < L, f ∈ O k ∧ U (pos O k f) ω < q k f) ↔ f ∈ G} := by
      ext ω; simp only [Finset.mem_insert, forall_eq_or_imp]; rfl
    have hdis : Disjoint (I e) (J S) := by
      rw [Set.disjoint_left]
      rintro i ⟨k, hk, hek, rfl⟩ ⟨f, hf, k', hk', hfk', hpos⟩
      obtain ⟨-, rfl⟩ := pos_inj O hek hfk' hpos
      exact he hf
    have hI := indep_iSup_of_disjoint hm_le hind hdis
    rw [hsplit, (Indep_iff _ _ P).1 hI _ _ (hmeas2 e) (hmS S), hsingle, ih, Finset.prod_insert he,
      ENNReal.ofReal_mul]
    split
    · linarith [(hprod e).2]
    · exact (hprod e).1

end Layer

end

end Verif
