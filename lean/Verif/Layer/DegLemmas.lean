import Verif.Layer.Lemmas

/-! # Expected degrees by label -/

namespace Verif

noncomputable section

open XR Spec
open scoped ENNReal

namespace Layer

theorem visit_other (Q : ℕ → ℕ → ℝ) (s : Bool) {lbl k : ℕ} (h : lbl ≠ k) (u v i : ℕ) :
    visit Q s lbl u v (i, k) = 0 := by
  have h1 : ∀ a, (i, k) ≠ (a, lbl) := fun a e => h (Prod.mk.inj e).2.symm
  unfold visit
  split_ifs
  · simp [Pi.single_eq_of_ne (h1 _)]
  · simp [Pi.single_eq_of_ne (h1 _)]
  · rfl

theorem visit_eq (Q : ℕ → ℕ → ℝ) (s : Bool) (k u v i : ℕ) :
    visit Q s k u v (i, k)
      = if u ≠ v then
          (if u = i then ((Q u v + Q v u - Q u v * Q v u, Q u v, Q v u) : ℝ × ℝ × ℝ) else 0)
          + (if v = i then (Q u v + Q v u - Q u v * Q v u, Q v u, Q u v) else 0)
        else if u = i then (if s then (Q i i, Q i i, Q i i) else 0) else 0 := by
  have h1 : ∀ (a : ℕ) (w : ℝ × ℝ × ℝ), (Pi.single (a, k) w : ℕ × ℕ → ℝ × ℝ × ℝ) (i, k)
      = if a = i then w else 0 := by
    intro a w
    by_cases h : a = i
    · subst h; simp
    · rw [if_neg h, Pi.single_eq_of_ne]
      exact fun e => h (Prod.mk.inj e).1.symm
  unfold visit
  by_cases h : u = v
  · subst h
    simp only [ne_eq, not_true_eq_false, if_false]
    cases s
    · simp
    · simp only [if_true, h1]
      by_cases hu : u = i
      · subst hu; rfl
      · rw [if_neg hu, if_neg hu]
  · rw [if_pos h, if_pos h, Pi.add_apply, h1, h1]

/-- All visits that concern vertex `i`. -/
theorem sum_visits {A : Type} [AddCommMonoid A] (n i : ℕ) (hi : i < n) (P : ℕ → ℕ → Prop)
    [∀ u v, Decidable (P u v)] (F H : ℕ → ℕ → A) (D : A) :
    (∑ u ∈ Finset.range n, ∑ v ∈ Finset.range n,
      if P u v then
        (if u ≠ v then (if u = i then F u v else 0) + (if v = i then H u v else 0)
        else if u = i then D else 0) else 0)
    = ∑ j ∈ Finset.range n,
        if j = i then (if P i i then D else 0)
        else (if P i j then F i j else 0) + (if P j i then H j i else 0) := by
  have hi' := Finset.mem_range.2 hi
  have e : ∀ u v, (if P u v then
        (if u ≠ v then (if u = i then F u v else 0) + (if v = i then H u v else 0)
        else if u = i then D else 0) else 0)
      = (if u = i then (if v = i then (if P i i then D else 0) else
          (if P i v then F i v else 0)) else 0)
        + (if v = i then (if u = i then 0 else (if P u i then H u i else 0)) else 0) := by
    intro u v
    by_cases hu : u = i
    · subst hu
      by_cases hv : v = u
      · subst hv; simp
      · simp [hv, Ne.symm hv]
    · by_cases hv : v = i
      · subst hv
        simp [hu]
      · simp [hu, hv]
  simp only [e, Finset.sum_add_distrib]
  have s1 : (∑ u ∈ Finset.range n, ∑ v ∈ Finset.range n,
      (if u = i then (if v = i then (if P i i then D else 0) else
          (if P i v then F i v else 0)) else 0))
      = ∑ v ∈ Finset.range n, (if v = i then (if P i i then D else 0) else
          (if P i v then F i v else 0)) := by
    rw [Finset.sum_eq_single i]
    · simp
    · intro u _ hu; simp [hu]
    · intro h; exact absurd hi' h
  have s2 : (∑ u ∈ Finset.range n, ∑ v ∈ Finset.range n,
      (if v = i then (if u = i then 0 else (if P u i then H u i else 0)) else 0))
      = ∑ u ∈ Finset.range n, (if u = i then 0 else (if P u i then H u i else 0)) := by
    refine Finset.sum_congr rfl (fun u _ => ?_)
    rw [Finset.sum_ite_eq' (Finset.range n) i, if_pos hi']
  rw [s1, s2, ← Finset.sum_add_distrib]
  refine Finset.sum_congr rfl (fun j _ => ?_)
  split_ifs <;> simp

/-- Whether a vertex has a stored entry. -/
def stored {α : Type} (r : List (ℕ × α)) (i : ℕ) : Bool := (r.lookup i).isSome

theorem sum_stored {A α : Type} [AddCommMonoid A] (g : ℕ → A) {n : ℕ} {r : List (ℕ × α)}
    (hr : RowSorted r) (hn : ∀ e ∈ r, e.1 < n) :
    (r.map (fun e => g e.1)).sum = ∑ i ∈ Finset.range n, if stored r i then g i else 0 := by
  rw [sum_lookup (fun i _ => g i) n r hr hn]
  refine Finset.sum_congr rfl (fun i _ => ?_)
  unfold stored
  cases r.lookup i <;> simp

theorem entry_of_not_stored {r : List (ℕ × ℝ≥0∞)} {i : ℕ} (h : stored r i = false) :
    entry r i = 0 := by
  unfold stored at h; unfold entry
  cases h2 : r.lookup i with
  | none => rfl
  | some v => rw [h2] at h; simp at h

/-- What one layer adds to the entries of vertex `i`. -/
theorem layer_visits (K : Kind) (d : ℝ≥0∞) {a b : List (ℕ × ℝ≥0∞)} (ha : RowSorted a)
    (hb : RowSorted b) {n : ℕ} (han : ∀ e ∈ a, e.1 < n) (hbn : ∀ e ∈ b, e.1 < n) (s : Bool)
    (k i : ℕ) (hi : i < n) :
    let Q := fun i j => K.q (d * entry a i * entry b j)
    let both := fun j => stored a i && stored b j && stored a j && stored b i && !(j == i)
    (a.map (fun u => (b.map (fun v => visit Q s k u.1 v.1)).sum)).sum (i, k)
      = ((∑ j ∈ Finset.range n, DiGraphEnsemble.undir s Q i j)
            + ∑ j ∈ Finset.range n, if both j then Q i j + Q j i - Q i j * Q j i else 0,
          (∑ j ∈ Finset.range n, DiGraphEnsemble.masked s Q i j)
            + ∑ j ∈ Finset.range n, if both j then Q i j else 0,
          (∑ j ∈ Finset.range n, DiGraphEnsemble.masked s Q j i)
            + ∑ j ∈ Finset.range n, if both j then Q j i else 0) := by
  intro Q both
  have e0 : (a.map (fun u => (b.map (fun v => visit Q s k u.1 v.1)).sum)).sum (i, k)
      = ∑ u ∈ Finset.range n, ∑ v ∈ Finset.range n,
          if (stored a u && stored b v) = true then visit Q s k u v (i, k) else 0 := by
    rw [sum_stored (fun u => (b.map (fun v => visit Q s k u v.1)).sum) ha han, Finset.sum_apply]
    refine Finset.sum_congr rfl (fun u _ => ?_)
    cases hu : stored a u
    · simp
    · rw [if_pos rfl, sum_stored (fun v => visit Q s k u v) hb hbn, Finset.sum_apply]
      refine Finset.sum_congr rfl (fun v _ => ?_)
      cases stored b v <;> simp
  rw [e0]
  simp only [visit_eq]
  rw [sum_visits n i hi (fun u v => (stored a u && stored b v) = true)
    (fun u v => (Q u v + Q v u - Q u v * Q v u, Q u v, Q v u))
    (fun u v => (Q u v + Q v u - Q u v * Q v u, Q v u, Q u v))]
  have hQ1 : ∀ u v, stored a u = false → Q u v = 0 := fun u v h => by
    simp [Q, entry_of_not_stored h, K.q_zero]
  have hQ2 : ∀ u v, stored b v = false → Q u v = 0 := fun u v h => by
    simp [Q, entry_of_not_stored h, K.q_zero]
  rw [← Finset.sum_add_distrib, ← Finset.sum_add_distrib, ← Finset.sum_add_distrib]
  have t : ∀ j, (if j = i then if (stored a i && stored b i) = true then
        (if s = true then ((Q i i, Q i i, Q i i) : ℝ × ℝ × ℝ) else 0) else 0
      else
        (if (stored a i && stored b j) = true then
          (Q i j + Q j i - Q i j * Q j i, Q i j, Q j i) else 0) +
          if (stored a j && stored b i) = true then
            (Q j i + Q i j - Q j i * Q i j, Q i j, Q j i) else 0)
      = (DiGraphEnsemble.undir s Q i j + if both j then Q i j + Q j i - Q i j * Q j i else 0,
          DiGraphEnsemble.masked s Q i j + if both j then Q i j else 0,
          DiGraphEnsemble.masked s Q j i + if both j then Q j i else 0) := by
    intro j
    unfold DiGraphEnsemble.undir DiGraphEnsemble.masked
    by_cases hj : j = i
    · subst hj
      have hb0 : both j = false := by simp [both]
      rw [hb0]
      cases s
      · simp [admissible]; rfl
      · cases h1 : stored a j
        · simp [hQ1 j j h1]; rfl
        · cases h2 : stored b j
          · simp [hQ2 j j h2]; rfl
          · simp [admissible]
    · have hb0 : both j = (stored a i && stored b j && stored a j && stored b i) := by
        simp [both, hj]
      have hij : i ≠ j := Ne.symm hj
      have ad1 : admissible i j s = true := by unfold admissible; simp [hij]
      have ad2 : admissible j i s = true := by unfold admissible; simp [hj]
      rw [hb0, if_neg hj, if_pos hij]
      simp only [ad1, ad2, if_true]
      cases h1 : stored a i <;> cases h2 : stored b j <;> cases h3 : stored a j <;>
        cases h4 : stored b i <;>
        simp [hQ1, hQ2, h1, h2, h3, h4] <;> first | rfl | ring
  rw [Finset.sum_congr rfl (fun j _ => t j)]
  refine Prod.ext ?_ (Prod.ext ?_ ?_)
  · rw [Prod.fst_sum]
  · rw [Prod.snd_sum, Prod.fst_sum]
  · rw [Prod.snd_sum, Prod.snd_sum]

/-- The loops over one layer, for either form of the step. -/
theorem layer_holds (K : Kind) (d : ℝ≥0∞) {a b : List (ℕ × ℝ≥0∞)} (s : Bool) (lbl : ℕ)
    (step : ℕ × XR → Dicts → ℕ × XR → Dicts)
    (hstep : ∀ x ∈ a, ∀ y ∈ b, ∀ t g, Holds t g →
      Holds (step (x.1, ofENN x.2) t (y.1, ofENN y.2))
        (g + visit (fun i j => K.q (d * entry a i * entry b j)) s lbl x.1 y.1))
    (t : Dicts) (g : ℕ × ℕ → ℝ × ℝ × ℝ) (h : Holds t g) :
    Holds ((rowX a).foldl (fun t x => (rowX b).foldl (step x) t) t)
      (g + (a.map (fun u => (b.map (fun v =>
        visit (fun i j => K.q (d * entry a i * entry b j)) s lbl u.1 v.1)).sum)).sum) := by
  unfold rowX
  simp only [List.foldl_map]
  refine foldl_holds _ _ a (fun x hx t g h => ?_) t g h
  exact foldl_holds _ _ b (fun y hy t g h => hstep x hx y hy t g h) t g h

/-- The numbers in the dictionaries of the sparse backend. -/
theorem exp_degrees_label_holds (K : Kind) (n L : ℕ) (d : ℕ → ℝ≥0∞)
    {x y : ℕ → List (ℕ × ℝ≥0∞)} (hx : ∀ i, RowSorted (x i)) (hy : ∀ i, RowSorted (y i))
    (dyad : ℕ → ℕ → XR) (s : Bool) :
    Holds (exp_degrees_label K.link.p_ijk n L (fun k => ofENN (d k)) (fun i => rowX (x i))
        (fun i => rowX (y i)) dyad s)
      ((List.range L).map (fun k => ((column n x k).map (fun u => ((column n y k).map (fun v =>
        visit (fun i j => K.q (d k * entry (column n x k) i * entry (column n y k) j)) s k
          u.1 v.1)).sum)).sum)).sum := by
  unfold exp_degrees_label
  simp only [column_rowX]
  rw [← zero_add (List.sum _)]
  refine foldl_holds _ _ (List.range L) (fun k _ t g h => ?_) _ _ holds_empty
  exact layer_holds K (d k) s k _ (fun u hu v hv t g h =>
    step_holds K (d k) (column_sorted hx k) (column_sorted hy k) dyad s k hu hv t g h) t g h

theorem visits_other (Q : ℕ → ℕ → ℝ) (s : Bool) {lbl k : ℕ} (h : lbl ≠ k) (i : ℕ)
    (a b : List (ℕ × ℝ≥0∞)) :
    (a.map (fun u => (b.map (fun v => visit Q s lbl u.1 v.1)).sum)).sum (i, k) = 0 := by
  have aux : ∀ {β : Type} (l : List β) (f : β → ℕ × ℕ → ℝ × ℝ × ℝ), (∀ e ∈ l, f e (i, k) = 0) →
      (l.map f).sum (i, k) = 0 := by
    intro β l f hf
    induction l with
    | nil => rfl
    | cons e l ih =>
      rw [List.map_cons, List.sum_cons, Pi.add_apply, hf e (by simp),
        ih (fun e he => hf e (by simp [he])), add_zero]
  exact aux _ _ (fun u _ => aux _ _ (fun v _ => visit_other Q s h _ _ _))

theorem sum_range_apply {A : Type} [AddCommMonoid A] (L k : ℕ) (hk : k < L)
    (f : ℕ → ℕ × ℕ → A) (i : ℕ) (h : ∀ lbl, lbl ≠ k → f lbl (i, k) = 0) :
    ((List.range L).map f).sum (i, k) = f k (i, k) := by
  have : ((List.range L).map f).sum = ∑ l ∈ Finset.range L, f l := rfl
  rw [this, Finset.sum_apply, Finset.sum_eq_single k]
  · intro b _ hb; exact h b hb
  · intro h; exact absurd (Finset.mem_range.2 hk) h

/-- The three entries of vertex `i` and label `k`. -/
def triple (K : Kind) (n : ℕ) (d : ℕ → ℝ≥0∞) (x y : ℕ → List (ℕ × ℝ≥0∞)) (s : Bool) (k i : ℕ) :
    ℝ × ℝ × ℝ :=
  let Q := fun i j => K.q (d k * entry (column n x k) i * entry (column n y k) j)
  let both := fun j => stored (column n x k) i && stored (column n y k) j
    && stored (column n x k) j && stored (column n y k) i && !(j == i)
  ((∑ j ∈ Finset.range n, DiGraphEnsemble.undir s Q i j)
      + ∑ j ∈ Finset.range n, if both j then Q i j + Q j i - Q i j * Q j i else 0,
    (∑ j ∈ Finset.range n, DiGraphEnsemble.masked s Q i j)
      + ∑ j ∈ Finset.range n, if both j then Q i j else 0,
    (∑ j ∈ Finset.range n, DiGraphEnsemble.masked s Q j i)
      + ∑ j ∈ Finset.range n, if both j then Q j i else 0)

theorem sparse_triple (K : Kind) (n L : ℕ) (d : ℕ → ℝ≥0∞)
    {x y : ℕ → List (ℕ × ℝ≥0∞)} (hx : ∀ i, RowSorted (x i)) (hy : ∀ i, RowSorted (y i))
    (dyad : ℕ → ℕ → XR) (s : Bool) {i k : ℕ} (hi : i < n) (hk : k < L) :
    let D := exp_degrees_label K.link.p_ijk n L (fun k => ofENN (d k)) (fun i => rowX (x i))
        (fun i => rowX (y i)) dyad s
    let T := triple K n d x y s k i
    at_ D.d i k = fin T.1 ∧ at_ D.dOut i k = fin T.2.1 ∧ at_ D.dIn i k = fin T.2.2 := by
  intro D T
  have h := exp_degrees_label_holds K n L d hx hy dyad s (i, k)
  rw [sum_range_apply L k hk _ i (fun lbl hl => visits_other _ s hl i _ _),
    layer_visits K (d k) (column_sorted hx k) (column_sorted hy k) column_lt column_lt s k i hi]
    at h
  exact h.2

theorem foldl_add_fin (l : List ℕ) (f : ℕ → XR) (g : ℕ → ℝ) (h : ∀ k ∈ l, f k = fin (g k))
    (c : ℝ) : l.foldl (fun v k => v + f k) (fin c) = fin (c + (l.map g).sum) := by
  induction l generalizing c with
  | nil => simp
  | cons a l ih =>
    rw [List.foldl_cons, h a (by simp), fin_add_fin, ih (fun k hk => h k (by simp [hk])),
      List.map_cons, List.sum_cons, add_assoc]

theorem spark_triple (K : Kind) (n L : ℕ) (d : ℕ → ℝ≥0∞)
    {x y : ℕ → List (ℕ × ℝ≥0∞)} (hx : ∀ i, RowSorted (x i)) (hy : ∀ i, RowSorted (y i))
    (dyad : ℕ → ℕ → XR) (s : Bool) {i k : ℕ} (hi : i < n) (hk : k < L) :
    let D := Spark.degrees_by_label K.link.p_ijk n L (fun k => ofENN (d k))
      (fun i => rowX (x i)) (fun i => rowX (y i)) dyad s
    let T := triple K n d x y s k i
    D Dicts.d i k = fin T.1 ∧ D Dicts.dOut i k = fin T.2.1 ∧ D Dicts.dIn i k = fin T.2.2 := by
  intro D T
  let V : ℕ → ℕ × ℕ → ℝ × ℝ × ℝ := fun k =>
    ((column n x k).map (fun u => ((column n y k).map (fun v =>
        visit (fun i j => K.q (d k * entry (column n x k) i * entry (column n y k) j)) s k
          u.1 v.1)).sum)).sum
  have hl : ∀ lbl, Holds (Spark.exp_degrees_layer K.link.p_ijk (ofENN (d lbl))
      (rowX (column n x lbl)) (rowX (column n y lbl)) dyad s lbl) (V lbl) := by
    intro lbl
    unfold Spark.exp_degrees_layer
    have := layer_holds K (d lbl) s lbl _ (fun u hu v hv t g h =>
      spark_step_holds K (d lbl) (column_sorted (n := n) hx lbl) (column_sorted (n := n) hy lbl)
        dyad s lbl hu hv t g h) _ _ holds_empty
    rwa [zero_add] at this
  have hV : V k (i, k) = T :=
    layer_visits K (d k) (column_sorted hx k) (column_sorted hy k) column_lt column_lt s k i hi
  have hV0 : ∀ lbl, lbl ≠ k → V lbl (i, k) = 0 := fun lbl hl => visits_other _ s hl i _ _
  have key : ∀ (sel : Dicts → Dict) (pr : ℝ × ℝ × ℝ → ℝ), pr 0 = 0 →
      (∀ lbl, at_ (sel (Spark.exp_degrees_layer K.link.p_ijk (ofENN (d lbl))
        (rowX (column n x lbl)) (rowX (column n y lbl)) dyad s lbl)) i k = fin (pr (V lbl (i, k))))
      → D sel i k = fin (pr T) := by
    intro sel pr hp h
    show Spark.degrees_by_label K.link.p_ijk n L (fun k => ofENN (d k))
      (fun i => rowX (x i)) (fun i => rowX (y i)) dyad s sel i k = _
    unfold Spark.degrees_by_label
    simp only [column_rowX]
    rw [show (0 : XR) = fin 0 from rfl, foldl_add_fin _ _ _ (fun lbl _ => h lbl), zero_add]
    have : ((List.range L).map (fun lbl => pr (V lbl (i, k)))).sum
        = ∑ l ∈ Finset.range L, pr (V l (i, k)) := rfl
    rw [this, Finset.sum_eq_single k, hV]
    · intro b _ hb; rw [hV0 b hb, hp]
    · intro h; exact absurd (Finset.mem_range.2 hk) h
  exact ⟨key _ (fun t => t.1) rfl (fun lbl => (hl lbl (i, k)).2.1),
    key _ (fun t => t.2.1) rfl (fun lbl => (hl lbl (i, k)).2.2.1),
    key _ (fun t => t.2.2) rfl (fun lbl => (hl lbl (i, k)).2.2.2)⟩

/-! ### Dense arrays -/

namespace Dense

/-- One label of the arrays. -/
def slice (s : Arrays) (k : ℕ) : DiGraphEnsemble.Degrees :=
  ⟨fun i => s.exp_d (i, k), fun i => s.exp_d_out (i, k), fun i => s.exp_d_in (i, k)⟩

theorem add2_slice (a : ℕ × ℕ → XR) (i k : ℕ) (v : XR) :
    (fun u => add2 a (i, k) v (u, k)) = addAt (fun u => a (u, k)) i v := by
  funext u
  unfold add2 addAt
  by_cases h : u = i
  · subst h; simp
  · rw [Function.update_of_ne h, Function.update_of_ne (fun e => h (Prod.mk.inj e).1)]

theorem add2_other (a : ℕ × ℕ → XR) {l k : ℕ} (h : l ≠ k) (i u : ℕ) (v : XR) :
    add2 a (i, l) v (u, k) = a (u, k) := by
  unfold add2
  rw [Function.update_of_ne (fun e => h (Prod.mk.inj e).2.symm)]

theorem addAt_comm (a : ℕ → XR) {i j : ℕ} (h : i ≠ j) (v w : XR) :
    addAt (addAt a i v) j w = addAt (addAt a j w) i v := by
  funext u
  unfold addAt
  by_cases h1 : u = i
  · subst h1; simp [h]
  · by_cases h2 : u = j
    · subst h2; simp [h1]
    · simp [h1, h2]

variable (p : XR → XR → XR → XR → XR) (param : ℕ → XR) (po pi : ℕ → ℕ → XR) (dyad : ℕ → ℕ → XR)
  (s : Bool)

theorem step_same (k i : ℕ) (t : Arrays) (j : ℕ) :
    slice (exp_degrees_step p param po pi dyad s k i t j) k
      = DiGraphEnsemble.exp_degrees_step p (param k) (fun i => po i k) (fun j => pi j k) dyad s i
          (slice t k) j := by
  unfold exp_degrees_step DiGraphEnsemble.exp_degrees_step
  by_cases h : i = j
  · subst h
    simp only [ne_eq, not_true_eq_false, if_false]
    cases s
    · simp
    · simp only [if_true]
      simp only [slice, add2_slice]
  · rw [if_pos h, if_pos h]
    simp only [slice, add2_slice]
    rw [addAt_comm (fun u => t.exp_d_in (u, k)) h]

theorem step_other {l k : ℕ} (h : l ≠ k) (i : ℕ) (t : Arrays) (j : ℕ) :
    slice (exp_degrees_step p param po pi dyad s l i t j) k = slice t k := by
  unfold exp_degrees_step slice
  split_ifs <;> simp [add2_other _ h]

theorem foldl_slice {β γ : Type} (f : Arrays → β → Arrays) (r : Arrays → γ) (g : γ → β → γ)
    (h : ∀ t b, r (f t b) = g (r t) b) (l : List β) (t : Arrays) :
    r (l.foldl f t) = l.foldl g (r t) := by
  induction l generalizing t with
  | nil => rfl
  | cons b l ih => rw [List.foldl_cons, List.foldl_cons, ih, h]

theorem foldl_id {β γ : Type} (l : List β) (c : γ) : l.foldl (fun c _ => c) c = c := by
  induction l with
  | nil => rfl
  | cons b l ih => exact ih

theorem slice_label (n L k : ℕ) (hk : k < L) :
    slice (exp_degrees_label p n L param po pi dyad s) k
      = DiGraphEnsemble.exp_degrees p (param k) n (fun i => po i k) (fun j => pi j k) dyad s := by
  have same : ∀ t, slice ((List.range n).foldl (fun s' i => (List.range (i + 1)).foldl
        (exp_degrees_step p param po pi dyad s k i) s') t) k
      = (List.range n).foldl (fun s' i => (List.range (i + 1)).foldl
        (DiGraphEnsemble.exp_degrees_step p (param k) (fun i => po i k) (fun j => pi j k) dyad s i)
          s') (slice t k) := fun t =>
    foldl_slice _ (fun t => slice t k) _ (fun t i =>
      foldl_slice _ (fun t => slice t k) _ (fun t j => step_same p param po pi dyad s k i t j)
        _ t) _ t
  have other : ∀ l, l ≠ k → ∀ t, slice ((List.range n).foldl (fun s' i =>
        (List.range (i + 1)).foldl (exp_degrees_step p param po pi dyad s l i) s') t) k
      = slice t k := by
    intro l hl t
    rw [foldl_slice _ (fun t => slice t k) (fun c _ => c) (fun t i => ?_), foldl_id]
    rw [foldl_slice _ (fun t => slice t k) (fun c _ => c)
      (fun t j => step_other p param po pi dyad s hl i t j), foldl_id]
  have pre : ∀ m, m ≤ k → slice (exp_degrees_label p n m param po pi dyad s) k
      = ⟨zeros, zeros, zeros⟩ := by
    intro m
    induction m with
    | zero => intro _; rfl
    | succ m ih =>
      intro hm
      unfold exp_degrees_label
      rw [List.range_succ, List.foldl_append, List.foldl_cons, List.foldl_nil,
        other m (by omega)]
      exact ih (by omega)
  have post : ∀ m, k < m → slice (exp_degrees_label p n m param po pi dyad s) k
      = DiGraphEnsemble.exp_degrees p (param k) n (fun i => po i k) (fun j => pi j k) dyad s := by
    intro m
    induction m with
    | zero => intro h; omega
    | succ m ih =>
      intro hm
      unfold exp_degrees_label
      rw [List.range_succ, List.foldl_append, List.foldl_cons, List.foldl_nil]
      by_cases hmk : m = k
      · subst hmk
        rw [same]
        have := pre m le_rfl
        unfold exp_degrees_label at this
        rw [this]
        rfl
      · rw [other m hmk]
        exact ih (by omega)
  exact post L hk

end Dense

end Layer

end

end Verif
