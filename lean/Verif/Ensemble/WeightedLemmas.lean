import Verif.Ensemble.Weighted
import Verif.Ensemble.StreamLemmas
import Verif.Ensemble.RepeatLemmas

/-! # Weighted samples as results of procedures on a stream -/

namespace Verif

open XR MeasureTheory ProbabilityTheory Set

namespace RStream

theorem used_map {E F R : Type} (S : F → (ℕ → ℝ) → ℕ × R) (f : E → F) (l : List E) (u : ℕ → ℝ) :
    used S (l.map f) u = used (fun e => S (f e)) l u := by
  induction l generalizing u with
  | nil => rfl
  | cons a l ih => simp only [List.map_cons, used, ih]

theorem val_map {E F R : Type} [DecidableEq E] [DecidableEq F] [Inhabited R]
    (S : F → (ℕ → ℝ) → ℕ × R) {f : E → F} (hf : Function.Injective f) (l : List E) (u : ℕ → ℝ)
    (x : E) : val S (l.map f) u (f x) = val (fun e => S (f e)) l u x := by
  induction l generalizing u with
  | nil => rfl
  | cons a l ih => simp only [List.map_cons, val, ih, hf.eq_iff]

theorem val_post {E R R' : Type} [DecidableEq E] [Inhabited R] [Inhabited R']
    (S : E → (ℕ → ℝ) → ℕ × R) (g : R → R') (l : List E) (u : ℕ → ℝ) {x : E} (hx : x ∈ l) :
    val (fun e u => ((S e u).1, g (S e u).2)) l u x = g (val S l u x) := by
  induction l generalizing u with
  | nil => simp at hx
  | cons a l ih =>
    simp only [val]
    split
    · rfl
    · next h => exact ih _ (by simpa [h] using hx)

theorem used_post {E R R' : Type} (S : E → (ℕ → ℝ) → ℕ × R) (g : R → R') (l : List E) (u : ℕ → ℝ) :
    used (fun e u => ((S e u).1, g (S e u).2)) l u = used S l u := by
  induction l generalizing u with
  | nil => rfl
  | cons a l ih => simp only [used, ih]

end RStream

open RStream

instance : Inhabited XR := ⟨XR.nan⟩

/-- The rows collected from results that say whether there is a link and with which weight. -/
def rowsOf (l : List (ℕ × ℕ)) (v : ℕ × ℕ → Bool × XR) : List ((ℕ × ℕ) × XR) :=
  l.filterMap fun e => if (v e).1 then some (e, (v e).2) else none

theorem rowsOf_congr {l : List (ℕ × ℕ)} {v v' : ℕ × ℕ → Bool × XR} (h : ∀ e ∈ l, v e = v' e) :
    rowsOf l v = rowsOf l v' :=
  List.filterMap_congr fun e he => by rw [h e he]

/-- A loop that appends the links to its accumulator. -/
theorem foldl_stream (S : ℕ × ℕ → (ℕ → ℝ) → ℕ × (Bool × XR)) (u : ℕ → ℝ) (l : List (ℕ × ℕ))
    (hl : l.Nodup) (k : ℕ) (rows : List ((ℕ × ℕ) × XR)) :
    l.foldl (fun (st : ℕ × List ((ℕ × ℕ) × XR)) e =>
        (st.1 + (S e (drop st.1 u)).1,
          if (S e (drop st.1 u)).2.1 then st.2 ++ [(e, (S e (drop st.1 u)).2.2)] else st.2)) (k, rows)
      = (k + used S l (drop k u), rows ++ rowsOf l (val S l (drop k u))) := by
  induction l generalizing k rows with
  | nil => simp [used, rowsOf]
  | cons a l ih =>
    rw [List.nodup_cons] at hl
    rw [List.foldl_cons, ih hl.2]
    have hc : rowsOf l (val S (a :: l) (drop k u))
        = rowsOf l (val S l (drop (k + (S a (drop k u)).1) u)) := by
      refine rowsOf_congr fun e he => ?_
      simp only [val]
      rw [if_neg fun h : e = a => hl.1 (h ▸ he), drop_drop]
    refine Prod.ext ?_ ?_
    · simp only [used, drop_drop]
      omega
    · show _ = rows ++ rowsOf (a :: l) _
      unfold rowsOf at hc ⊢
      rw [List.filterMap_cons, hc]
      simp only [val, if_true]
      cases h : (S a (drop k u)).2.1 <;> simp

/-- Looking up a pair in the rows. -/
theorem lookup_rowsOf (l : List (ℕ × ℕ)) (v : ℕ × ℕ → Bool × XR) {e : ℕ × ℕ} (he : e ∈ l) :
    (rowsOf l v).lookup e = if (v e).1 then some (v e).2 else none := by
  induction l with
  | nil => simp at he
  | cons a l ih =>
    unfold rowsOf at ih ⊢
    rw [List.filterMap_cons]
    by_cases hea : e = a
    · subst hea
      cases h : (v e).1
      · simp only [Bool.false_eq_true, if_false]
        by_cases hel : e ∈ l
        · rw [ih hel, h]; rfl
        · rw [List.lookup_eq_none_iff]
          intro p hp
          simp only [List.mem_filterMap] at hp
          obtain ⟨b, hb, hbp⟩ := hp
          split at hbp
          · injection hbp with hbp
            subst hbp
            simp only [bne_iff_ne, ne_eq]
            rintro rfl
            exact hel hb
          · cases hbp
      · simp
    · have := ih ((List.mem_cons.1 he).resolve_left hea)
      cases h : (v a).1
      · simpa using this
      · simp only [if_true]
        rw [List.lookup_cons, show (e == a) = false by simpa using hea]
        exact this

namespace WCall

/-- What a call does for one pair. -/
noncomputable def pair (c : WCall) (e : ℕ × ℕ) (u : ℕ → ℝ) : ℕ × (Bool × XR) :=
  match c.weights with
  | .none => (1, if ltb (fin (u 0)) (c.ens.p e.1 e.2) then (true, fin 1) else (false, fin 0))
  | .cremb s_out s_in =>
    if ltb (fin (u 0)) (c.ens.p e.1 e.2) then
      (2, (true, DiGraphEnsemble.exponential (fin (s_out e.1 * s_in e.2) /
        (fin (∑ i ∈ Finset.range c.n, s_out i) * c.ens.p e.1 e.2)) (u 1)))
    else (1, (false, fin 0))

/-- The strengths of a weighted call are accepted. -/
def Valid (c : WCall) : Prop :=
  match c.weights with
  | .none => True
  | .cremb s_out s_in => (∑ i ∈ Finset.range c.n, s_out i) ≠ 0 ∧
      |(∑ i ∈ Finset.range c.n, s_out i) - ∑ i ∈ Finset.range c.n, s_in i|
        < 1e-6 * |∑ i ∈ Finset.range c.n, s_out i|

theorem test_iff (a b : ℝ) : |1 - b / a| < 1e-6 ↔ a ≠ 0 ∧ |a - b| < 1e-6 * |a| := by
  by_cases ha : a = 0
  · subst ha
    simp only [div_zero, sub_zero, abs_one, ne_eq, not_true_eq_false, false_and, iff_false]
    norm_num
  · have h1 : |1 - b / a| = |a - b| / |a| := by
      rw [← abs_div]; congr 1; field_simp
    rw [h1, div_lt_iff₀ (abs_pos.2 ha)]
    exact ⟨fun h => ⟨ha, h⟩, fun h => h.2⟩

theorem sample_eq (c : WCall) (hv : c.Valid) (u : ℕ → ℝ) :
    c.sample u = (used c.pair (order c.n c.sl) u,
      .ok (rowsOf (order c.n c.sl) (val c.pair (order c.n c.sl) u))) := by
  have hd : drop 0 u = u := drop_zero u
  have h := foldl_stream c.pair u (order c.n c.sl) (nodup_order c.n c.sl) 0 []
  rw [hd, zero_add, List.nil_append] at h
  unfold sample
  cases hw : c.weights with
  | none =>
    simp only
    have hp : ∀ e u, c.pair e u
        = (1, if ltb (fin (u 0)) (c.ens.p e.1 e.2) then (true, fin 1) else (false, fin 0)) := by
      intro e u
      unfold pair
      rw [hw]
    have h1 : ∀ l : List (ℕ × ℕ), ∀ k rows, l.foldl (fun (st : ℕ × List ((ℕ × ℕ) × XR)) e =>
        (st.1 + (c.pair e (drop st.1 u)).1,
          if (c.pair e (drop st.1 u)).2.1 then st.2 ++ [(e, (c.pair e (drop st.1 u)).2.2)] else st.2))
          (k, rows.map fun e => (e, fin 1))
        = ((l.foldl (fun (st : ℕ × List (ℕ × ℕ)) e =>
            (st.1 + 1, if ltb (fin (u st.1)) (c.ens.p e.1 e.2) then st.2 ++ [e] else st.2))
            (k, rows)).1,
          (l.foldl (fun (st : ℕ × List (ℕ × ℕ)) e =>
            (st.1 + 1, if ltb (fin (u st.1)) (c.ens.p e.1 e.2) then st.2 ++ [e] else st.2))
            (k, rows)).2.map fun e => (e, fin 1)) := by
      intro l
      induction l with
      | nil => intro k rows; rfl
      | cons a l ih =>
        intro k rows
        rw [List.foldl_cons, List.foldl_cons, ← ih]
        congr 1
        simp only [hp, drop, add_zero]
        cases ltb (fin (u k)) (c.ens.p a.1 a.2) <;> simp
    have h2 := h1 (order c.n c.sl) 0 []
    rw [List.map_nil, h] at h2
    have h3 : c.toCall.sample u = (order c.n c.sl).foldl (fun (st : ℕ × List (ℕ × ℕ)) e =>
            (st.1 + 1, if ltb (fin (u st.1)) (c.ens.p e.1 e.2) then st.2 ++ [e] else st.2))
            (0, []) := by
      unfold Call.sample DiGraphEnsemble.binary_sample_stream
      exact foldl_order (fun (st : ℕ × List (ℕ × ℕ)) i j => (st.1 + 1, if ltb (fin (u st.1))
        (c.ens.p_ij c.ens.param (c.ens.prop_out i) (c.ens.prop_in j) (c.ens.prop_dyad i j))
          then st.2 ++ [(i, j)] else st.2)) c.n c.sl (0, [])
    rw [h3]
    obtain ⟨h4, h5⟩ := Prod.ext_iff.1 h2
    exact Prod.ext h4.symm (congrArg Except.ok h5.symm)
  | cremb s_out s_in =>
    have hv' : (∑ i ∈ Finset.range c.n, s_out i) ≠ 0 ∧
      |(∑ i ∈ Finset.range c.n, s_out i) - ∑ i ∈ Finset.range c.n, s_in i|
        < 1e-6 * |∑ i ∈ Finset.range c.n, s_out i| := by
      unfold Valid at hv
      rwa [hw] at hv
    have h3 : DiGraphEnsemble.cremb_sample_stream c.ens.p_ij c.ens.param c.n c.ens.prop_out
        c.ens.prop_in c.ens.prop_dyad s_out s_in c.sl u = .ok (used c.pair (order c.n c.sl) u,
          rowsOf (order c.n c.sl) (val c.pair (order c.n c.sl) u)) := by
      unfold DiGraphEnsemble.cremb_sample_stream
      simp only [npSum_eq]
      rw [if_pos ((test_iff _ _).2 hv'), ← h]
      congr 1
      have := foldl_order (fun (s : ℕ × List ((ℕ × ℕ) × XR)) i j =>
        if ltb (fin (u s.1)) (c.ens.p_ij c.ens.param (c.ens.prop_out i) (c.ens.prop_in j)
            (c.ens.prop_dyad i j)) then
          (s.1 + 2, s.2 ++ [((i, j), DiGraphEnsemble.exponential (fin (s_out i * s_in j) /
            (fin (∑ i ∈ Finset.range c.n, s_out i) * c.ens.p_ij c.ens.param (c.ens.prop_out i)
              (c.ens.prop_in j) (c.ens.prop_dyad i j))) (u (s.1 + 1)))])
        else (s.1 + 1, s.2)) c.n c.sl (0, [])
      rw [this]
      congr 1
      funext st e
      have hp : c.pair e (drop st.1 u) = if ltb (fin (u st.1)) (c.ens.p e.1 e.2) then
          (2, (true, DiGraphEnsemble.exponential (fin (s_out e.1 * s_in e.2) /
            (fin (∑ i ∈ Finset.range c.n, s_out i) * c.ens.p e.1 e.2)) (u (st.1 + 1))))
          else (1, (false, fin 0)) := by
        unfold pair
        rw [hw]
        rfl
      rw [hp]
      unfold Ens.p
      split <;> simp
    simp only [h3]

/-- A call with strengths that are not accepted reads nothing. -/
theorem sample_invalid (c : WCall) (hv : ¬ c.Valid) (u : ℕ → ℝ) :
    c.sample u = (0, .error .strengthsDiffer) := by
  unfold sample
  unfold Valid at hv
  cases hw : c.weights with
  | none => rw [hw] at hv; exact absurd trivial hv
  | cremb s_out s_in =>
    rw [hw] at hv
    simp only
    unfold DiGraphEnsemble.cremb_sample_stream
    simp only [npSum_eq]
    rw [if_neg fun h => hv ((test_iff _ _).1 h)]

/-! ## Sequences of calls -/

/-- All pairs of the first `m` calls, in the order in which they are visited. -/
def idx (c : ℕ → WCall) (m : ℕ) : List (ℕ × (ℕ × ℕ)) :=
  (List.range m).flatMap fun k => (order (c k).n (c k).sl).map fun e => (k, e)

theorem idx_succ (c : ℕ → WCall) (m : ℕ) :
    idx c (m + 1) = idx c m ++ (order (c m).n (c m).sl).map fun e => (m, e) := by
  simp [idx, List.range_succ, List.flatMap_append]

theorem mem_idx {c : ℕ → WCall} {m : ℕ} {x : ℕ × (ℕ × ℕ)} :
    x ∈ idx c m ↔ x.1 < m ∧ x.2 ∈ Law.pairs (c x.1).n (c x.1).sl := by
  simp only [idx, List.mem_flatMap, List.mem_range, List.mem_map]
  constructor
  · rintro ⟨k, hk, e, he, rfl⟩
    exact ⟨hk, mem_order.1 he⟩
  · rintro ⟨h1, h2⟩
    exact ⟨x.1, h1, x.2, mem_order.2 h2, rfl⟩

theorem nodup_idx (c : ℕ → WCall) (m : ℕ) : (idx c m).Nodup := by
  induction m with
  | zero => simp [idx]
  | succ m ih =>
    rw [idx_succ, List.nodup_append]
    refine ⟨ih, (nodup_order _ _).map fun a b h => (Prod.mk.inj h).2, ?_⟩
    rintro x hx y hy rfl
    obtain ⟨e, _, rfl⟩ := List.mem_map.1 hy
    exact absurd (mem_idx.1 hx).1 (lt_irrefl _)

/-- What the calls do for one pair. -/
noncomputable def pairs (c : ℕ → WCall) (x : ℕ × (ℕ × ℕ)) (u : ℕ → ℝ) : ℕ × (Bool × XR) :=
  (c x.1).pair x.2 u

/-- The result for a pair, in the stream. -/
noncomputable def at_ (c : ℕ → WCall) (x : ℕ × (ℕ × ℕ)) (u : ℕ → ℝ) : Bool × XR :=
  val (pairs c) (idx c (x.1 + 1)) u x

theorem at_eq (c : ℕ → WCall) (u : ℕ → ℝ) (m : ℕ) {x : ℕ × (ℕ × ℕ)} (hx : x ∈ idx c m) :
    val (pairs c) (idx c m) u x = at_ c x u := by
  induction m with
  | zero => simp [idx] at hx
  | succ m ih =>
    by_cases h : x ∈ idx c m
    · rw [idx_succ, val_append, if_pos h, ih h]
    · have h1 : x.1 = m := by
        have h2 := mem_idx.1 hx
        have h3 : ¬ x.1 < m := fun h' => h (mem_idx.2 ⟨h', h2.2⟩)
        omega
      unfold at_
      rw [h1]

theorem at_call (c : ℕ → WCall) (u : ℕ → ℝ) (k : ℕ) (e : ℕ × ℕ) :
    at_ c (k, e) u
      = val (c k).pair (order (c k).n (c k).sl) (drop (used (pairs c) (idx c k) u) u) e := by
  unfold at_
  simp only
  rw [idx_succ, val_append, if_neg fun h : (k, e) ∈ idx c k => absurd (mem_idx.1 h).1 (lt_irrefl k)]
  exact val_map (pairs c) (f := fun e => (k, e)) (fun a b h => (Prod.mk.inj h).2) _ _ e

theorem run_eq (c : ℕ → WCall) (hv : ∀ k, (c k).Valid) (u : ℕ → ℝ) (m : ℕ) :
    run c u m = (used (pairs c) (idx c m) u, (List.range m).map fun k =>
      .ok (rowsOf (order (c k).n (c k).sl) fun e => at_ c (k, e) u)) := by
  induction m with
  | zero => rfl
  | succ m ih =>
    simp only [run, ih]
    have h := sample_eq (c m) (hv m) (drop (used (pairs c) (idx c m) u) u)
    rw [show (c m).sample (fun k => u (used (pairs c) (idx c m) u + k)) = _ from h]
    refine Prod.ext ?_ ?_
    · rw [idx_succ, used_append, used_map]
      rfl
    · simp only [List.range_succ, List.map_append, List.map_cons, List.map_nil]
      congr 3
      exact rowsOf_congr fun e _ => (at_call c u m e).symm

end WCall

end Verif
