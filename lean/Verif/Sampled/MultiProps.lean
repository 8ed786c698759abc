import Verif.Sampled.Props

/-!
# C74: the objects returned by `sample`, multi-layer ensembles
-/

namespace Verif

noncomputable section

open XR Spec DiGraphEnsemble MeasureTheory Layer
open scoped ENNReal

namespace Sampled

open Graph (Mat Row coo assign get_num_bytes validDtype)
open Layer.Method (sparseObj denseObj)

variable {ι γ κ : Type} [DecidableEq ι] [DecidableEq κ]

/-! ## Specification -/

/-- The strengths have the shape the code asks for. -/
def Strength.Fits (n L : ℕ) : Strength → Prop
  | .none => True
  | .array sh _ => sh = (n, L)
  | .sparse m => m.shape = (n, L) ∧ ∀ i, RowSorted (m.row i)
  | .other => False

/-- The strength of vertex `i` with label `k`; by default the property of the model. -/
def Strength.value (x : ℕ → List (ℕ × ℝ≥0∞)) : Strength → ℕ → ℕ → ℝ
  | .none, i, k => (entry (x i) k).toReal
  | .array _ a, i, k => a i k
  | .sparse m, i, k => entry (m.row i) k
  | .other, _, _ => 0

/-- Whether the strength is stored. -/
def Strength.stored (x : ℕ → List (ℕ × ℝ≥0∞)) : Strength → ℕ → ℕ → Prop
  | .none, i, k => ∃ a ∈ x i, a.1 = k
  | .array _ a, i, k => a i k ≠ 0
  | .sparse m, i, k => ∃ a ∈ m.row i, a.1 = k
  | .other, _, _ => False

/-- Everything but the adjacency matrices: the sizes, types that can hold the identifiers, and the
names and groups of the reference graph. -/
def Described {A : Type} (n L : ℕ) (ref : Option (Ref ι γ κ)) (g : MultiObj ι γ κ A) : Prop :=
  g.num_vertices = n ∧ g.num_labels = L ∧ n < 256 ^ g.id_bytes.toNat ∧
  L < 256 ^ g.label_bytes.toNat ∧
  Names n (ref.map Ref.id_dict) g.id_dict ∧ Names L (ref.bind Ref.label_dict) g.label_dict ∧
  g.group = ref.bind Ref.group

/-- The reference graph can be used: none is given or it has labels. -/
def RefOk (ref : Option (Ref ι γ κ)) : Prop := ∀ r, ref = some r → r.label_dict ≠ none

/-! ## Lemmas -/

theorem header_ok {A : Type} {n L : ℕ} (hn : n < 2 ^ 64) (hL : L < 2 ^ 64)
    {ref : Option (Ref ι γ κ)} (hr : RefOk ref) :
    ∃ mk : (ℕ → A) → MultiObj ι γ κ A, header n L ref = .ok mk ∧
      ∀ adj, Described n L ref (mk adj) ∧ (mk adj).adj = adj := by
  have hd : validDtype (get_num_bytes n) ∧ validDtype (get_num_bytes L) :=
    ⟨(Graph.C26_valid n).2 hn, (Graph.C26_valid L).2 hL⟩
  unfold header
  rw [if_pos hd]
  cases ref with
  | none => exact ⟨_, rfl, fun adj =>
      ⟨⟨rfl, rfl, bytes_ok n, bytes_ok L, names_range n, names_range L, rfl⟩, rfl⟩⟩
  | some r =>
    obtain ⟨dl, hdl⟩ := Option.ne_none_iff_exists'.1 (hr r rfl)
    obtain ⟨ids, gr, lab⟩ := r
    cases hdl
    exact ⟨_, rfl, fun adj =>
      ⟨⟨rfl, rfl, bytes_ok n, bytes_ok L, names_ref n ids, names_ref L dl, rfl⟩, rfl⟩⟩

theorem collect {α : Type} (f : ℕ → Except Err α) (L : ℕ) :
    (∀ ls, (List.range L).foldlM (fun acc k => do
        let l ← f k
        return acc ++ [l]) ([] : List α) = .ok ls → ls.length = L ∧
      ∀ k < L, ∃ l, f k = .ok l ∧ ls[k]? = some l) ∧
    (∀ err, (List.range L).foldlM (fun acc k => do
        let l ← f k
        return acc ++ [l]) ([] : List α) = .error err ↔
      ∃ k < L, f k = .error err ∧ ∀ k' < k, ∃ l, f k' = .ok l) := by
  induction L with
  | zero =>
    refine ⟨fun ls h => ?_, fun err => ⟨nofun, ?_⟩⟩
    · cases h; exact ⟨rfl, by simp⟩
    · rintro ⟨k, hk, -⟩; omega
  | succ L ih =>
    rw [List.range_succ, List.foldlM_append]
    cases hp : (List.range L).foldlM (fun acc k => do
        let l ← f k
        return acc ++ [l]) ([] : List α) with
    | error e0 =>
      refine ⟨nofun, fun err => ?_⟩
      have h0 := (ih.2 e0).1 hp
      constructor
      · intro h
        cases h
        obtain ⟨k, hk, h1, h2⟩ := h0
        exact ⟨k, by omega, h1, h2⟩
      · rintro ⟨k, hk, h1, h2⟩
        obtain ⟨k0, hk0, h3, h4⟩ := h0
        rcases lt_trichotomy k k0 with hlt | rfl | hgt
        · obtain ⟨l, hl⟩ := h4 k hlt
          rw [h1] at hl; cases hl
        · rw [h1] at h3; cases h3; rfl
        · obtain ⟨l, hl⟩ := h2 k0 hgt
          rw [h3] at hl; cases hl
    | ok ls0 =>
      obtain ⟨hlen, hall⟩ := ih.1 ls0 hp
      cases hf : f L with
      | error e1 =>
        have hrun : (Except.ok ls0 >>= fun acc => [L].foldlM (fun acc k => do
            let l ← f k
            return acc ++ [l]) acc) = (.error e1 : Except Err (List α)) := by
          show ([L].foldlM (fun acc k => do
            let l ← f k
            return acc ++ [l]) ls0 : Except Err (List α)) = _
          rw [List.foldlM_cons, hf]; rfl
        rw [hrun]
        refine ⟨nofun, fun err => ?_⟩
        constructor
        · intro h
          cases h
          exact ⟨L, by omega, hf, fun k' hk' => (hall k' hk').imp fun l hl => hl.1⟩
        · rintro ⟨k, hk, h1, h2⟩
          rcases Nat.lt_succ_iff_lt_or_eq.1 hk with hlt | rfl
          · obtain ⟨l, hl, -⟩ := hall k hlt
            rw [h1] at hl; cases hl
          · rw [h1] at hf; cases hf; rfl
      | ok l1 =>
        have hrun : (Except.ok ls0 >>= fun acc => [L].foldlM (fun acc k => do
            let l ← f k
            return acc ++ [l]) acc) = (.ok (ls0 ++ [l1]) : Except Err (List α)) := by
          show ([L].foldlM (fun acc k => do
            let l ← f k
            return acc ++ [l]) ls0 : Except Err (List α)) = _
          rw [List.foldlM_cons, hf]; rfl
        rw [hrun]
        refine ⟨fun ls h => ?_, fun err => ⟨fun h => (by cases h), ?_⟩⟩
        · cases h
          refine ⟨by simp [hlen], fun k hk => ?_⟩
          rcases Nat.lt_succ_iff_lt_or_eq.1 hk with hlt | rfl
          · obtain ⟨l, hl, h2⟩ := hall k hlt
            exact ⟨l, hl, by rw [List.getElem?_append_left (by omega)]; exact h2⟩
          · exact ⟨l1, hf, by simp [← hlen]⟩
        · rintro ⟨k, hk, h1, h2⟩
          rcases Nat.lt_succ_iff_lt_or_eq.1 hk with hlt | rfl
          · obtain ⟨l, hl, -⟩ := hall k hlt
            rw [h1] at hl; cases hl
          · rw [h1] at hf; cases hf

theorem real_ofENN {a : ℝ≥0∞} (h : a ≠ ∞) : real (ofENN a) = a.toReal := by
  rw [XR.ofENN_of_ne_top h]; rfl

theorem sum_column {n : ℕ} {x : ℕ → List (ℕ × ℝ)} (hx : ∀ i, RowSorted (x i)) (k : ℕ) :
    ((column n x k).map Prod.snd).sum = ∑ i ∈ Finset.range n, entry (x i) k := by
  induction n with
  | zero => simp [column]
  | succ n ih =>
    have e : column (n + 1) x k = column n x k
        ++ (((x n).filter (fun e => e.1 == k)).map (fun e => (n, e.2))) := by
      unfold column; rw [List.range_succ, List.flatMap_append]; simp
    rw [e, List.map_append, List.sum_append, ih, Finset.sum_range_succ]
    congr 1
    have hl := filter_sorted (hx n) k
    rw [List.map_map]
    have : entry (x n) k = (((x n).filter (fun e => e.1 == k)).map Prod.snd).sum := by
      generalize x n = r at hl
      clear e ih hx
      unfold entry
      induction r with
      | nil => rfl
      | cons a t iht =>
        rw [List.lookup_cons, List.filter_cons]
        by_cases h : k = a.1
        · subst h
          rw [List.filter_cons, if_pos (by simp)] at hl
          have ht : t.filter (fun e => e.1 == a.1) = [] := by
            rw [← List.length_eq_zero_iff]; simp at hl; simpa using hl
          simp [ht]
        · have h1 : (k == a.1) = false := by simpa using h
          have h2 : (a.1 == k) = false := by simpa using fun hc => h hc.symm
          rw [List.filter_cons] at hl
          simp only [h2, Bool.false_eq_true, if_false] at hl ⊢
          simp only [h1]
          exact iht hl
    rw [this]
    rfl

theorem columns_exists {n L : ℕ} {s : Strength} (hs : s.Fits n L) (f : ℕ → List (ℕ × ℝ)) :
    ∃ c, s.columns n L f = .ok c := by
  cases s with
  | none => exact ⟨_, rfl⟩
  | array sh a => exact ⟨_, if_pos hs⟩
  | sparse m => exact ⟨_, if_pos hs.1⟩
  | other => exact hs.elim

theorem column_facts {n : ℕ} {r : ℕ → List (ℕ × ℝ)} (hr : ∀ i, RowSorted (r i)) (k : ℕ) :
    ((column n r k).map Prod.snd).sum = ∑ i ∈ Finset.range n, entry (r i) k ∧
      ∀ i < n, entry (column n r k) i = entry (r i) k ∧
        (((column n r k).lookup i).isSome = true ↔ ∃ a ∈ r i, a.1 = k) := by
  refine ⟨sum_column hr k, fun i hi => ⟨entry_column hi r k, ?_⟩⟩
  rw [lookup_column, if_pos hi]
  exact stored_iff.symm

/-- The strengths as read by the sampler, label by label. -/
theorem columns_ok {n L : ℕ} {x : ℕ → List (ℕ × ℝ≥0∞)} (hx : ∀ i, RowSorted (x i))
    (hfin : ∀ i, ∀ a ∈ x i, a.2 ≠ ∞) {s : Strength} (hs : s.Fits n L) :
    ∃ c, s.columns n L (fun k => (column n (fun i => rowX (x i)) k).map
        (fun e => (e.1, real e.2))) = .ok c ∧
      ∀ k, ((c k).map Prod.snd).sum = ∑ i ∈ Finset.range n, s.value x i k ∧
        ∀ i < n, entry (c k) i = s.value x i k ∧ (((c k).lookup i).isSome = true ↔ s.stored x i k) := by
  cases s with
  | none =>
    refine ⟨_, rfl, fun k => ?_⟩
    have e : (column n (fun i => rowX (x i)) k).map (fun e => (e.1, real e.2))
        = column n (fun i => (x i).map (fun a => (a.1, a.2.toReal))) k := by
      rw [column_rowX]
      unfold column rowX
      rw [List.map_flatMap, List.map_flatMap]
      congr 1
      funext i
      rw [List.filter_map, List.map_map, List.map_map, List.map_map]
      refine List.map_congr_left (fun a ha => ?_)
      exact Prod.ext rfl (real_ofENN (hfin i a (List.mem_filter.1 ha).1))
    have hent : ∀ i, entry ((x i).map (fun a => (a.1, a.2.toReal))) k = (entry (x i) k).toReal := by
      intro i
      unfold entry
      induction x i with
      | nil => simp
      | cons a t ih =>
        rw [List.map_cons, List.lookup_cons, List.lookup_cons]
        cases k == a.1
        · exact ih
        · rfl
    obtain ⟨h1, h2⟩ := column_facts (n := n) (r := fun i => (x i).map (fun a => (a.1, a.2.toReal)))
      (fun i => by unfold RowSorted; rw [List.pairwise_map]; exact hx i) k
    rw [e]
    refine ⟨h1.trans (Finset.sum_congr rfl fun i _ => hent i), fun i hi => ?_⟩
    obtain ⟨h3, h4⟩ := h2 i hi
    refine ⟨h3.trans (hent i), h4.trans ?_⟩
    constructor
    · rintro ⟨a, ha, rfl⟩
      obtain ⟨b, hb, rfl⟩ := List.mem_map.1 ha
      exact ⟨b, hb, rfl⟩
    · rintro ⟨a, ha, rfl⟩
      exact ⟨_, List.mem_map.2 ⟨a, ha, rfl⟩, rfl⟩
  | array sh a =>
    refine ⟨_, if_pos hs, fun k => ?_⟩
    have e : ((List.range n).filter (fun i => decide (a i k ≠ 0))).map (fun i => (i, a i k))
        = column n (fun i => if a i k ≠ 0 then [(k, a i k)] else []) k := by
      unfold column
      generalize List.range n = l
      induction l with
      | nil => rfl
      | cons i t ih =>
        rw [List.flatMap_cons, ← ih, List.filter_cons]
        by_cases h : a i k ≠ 0
        · simp [h]
        · simp [h]
    obtain ⟨h1, h2⟩ := column_facts (n := n)
      (r := fun i => if a i k ≠ 0 then [(k, a i k)] else [])
      (fun i => by unfold RowSorted; split <;> simp) k
    have hent : ∀ i, entry (if a i k ≠ 0 then [(k, a i k)] else []) k = a i k := by
      intro i
      by_cases h : a i k ≠ 0
      · simp [entry, h]
      · rw [if_neg h]; push Not at h; rw [h]; rfl
    rw [e]
    refine ⟨h1.trans (Finset.sum_congr rfl fun i _ => hent i), fun i hi => ?_⟩
    obtain ⟨h3, h4⟩ := h2 i hi
    refine ⟨h3.trans (hent i), h4.trans ?_⟩
    show _ ↔ a i k ≠ 0
    by_cases h : a i k ≠ 0
    · simp [h]
    · simp [h]
  | sparse m =>
    refine ⟨_, if_pos hs.1, fun k => ?_⟩
    exact column_facts hs.2 k
  | other => exact hs.elim

/-- When a layer of a weighted sample is accepted. -/
def LayerOk (n : ℕ) (s : Bool) (q : ℕ × ℕ → ℝ) (v : ℕ → ℕ → ℝ) (so si : ℕ → ℝ)
    (sto sti : ℕ → Prop) : Prop :=
  (∑ i ∈ Finset.range n, so i) ≠ 0 ∧
  |(∑ i ∈ Finset.range n, so i) - ∑ i ∈ Finset.range n, si i| < 1e-6 * |∑ i ∈ Finset.range n, so i| ∧
  ∀ i j, (i, j) ∈ Law.pairs n s → v i j < q (i, j) → (sto i ↔ sti j)

/-- One layer of a weighted sample. -/
theorem cremb_layer_facts (K : Kind) (n L : ℕ) (d : ℕ → ℝ≥0∞)
    (x y : ℕ → List (ℕ × ℝ≥0∞)) (hx : ∀ i, RowSorted (x i)) (hy : ∀ i, RowSorted (y i))
    (dyad : ℕ → ℕ → XR) (s : Bool) (k : ℕ) (co ci : List (ℕ × ℝ)) (so si : ℕ → ℝ)
    (sto sti : ℕ → Prop)
    (ho : (co.map Prod.snd).sum = ∑ i ∈ Finset.range n, so i)
    (ho' : ∀ i < n, entry co i = so i ∧ ((co.lookup i).isSome = true ↔ sto i))
    (hi : (ci.map Prod.snd).sum = ∑ i ∈ Finset.range n, si i)
    (hi' : ∀ i < n, entry ci i = si i ∧ ((ci.lookup i).isSome = true ↔ sti i))
    (v e : ℕ → ℕ → ℝ) (hv : ∀ i j, 0 ≤ v i j) :
    let F := Sparse.cremb_layer (sparseObj K n L (some d) x y dyad s) (fun k => ofENN (d k)) k co ci v e
    let q := layerProb K d x y k
    let bad := (∑ i ∈ Finset.range n, so i) = 0 ∨ 1e-6 * |∑ i ∈ Finset.range n, so i|
      ≤ |(∑ i ∈ Finset.range n, so i) - ∑ i ∈ Finset.range n, si i|
    ((∃ l, F = .ok l) ↔ LayerOk n s q v so si sto sti) ∧
    (∀ err, F = .error err → (err = .strengthsDiffer ∨ err = .emptySelection) ∧
      (err = .strengthsDiffer ↔ bad)) ∧
    (∀ l, F = .ok l → (l.map Prod.fst).Nodup ∧ ∀ i j w, ((i, j), w) ∈ l ↔ (i, j) ∈ Law.pairs n s ∧
      v i j < q (i, j) ∧
        w = fin (so i * si j / ((∑ i ∈ Finset.range n, so i) * q (i, j)) * e i j)) := by
  intro F q bad
  have hF : F = match Layer.cremb_sample_layer K.link.p_ijk (ofENN (d k)) (rowX (column n x k))
      (rowX (column n y k)) dyad co ci s v e with
      | .ok l => .ok l
      | .error .strengthsDiffer => .error .strengthsDiffer
      | .error .emptySelection => .error .emptySelection := by
    rw [← column_rowX, ← column_rowX]; rfl
  have hq : ∀ i j, (i, j) ∈ Law.pairs n s →
      K.q (d k * entry (column n x k) i * entry (column n y k) j) = q (i, j) := by
    intro i j h
    obtain ⟨h1, h2, -⟩ := Law.mem_pairs.1 h
    rw [entry_column h1, entry_column h2]
    rfl
  have hbad := C62_refused K (d k) _ _ (column_sorted (n := n) hx k) (column_sorted (n := n) hy k)
    dyad co ci s v e hv
  rw [ho, hi] at hbad
  by_cases hb : bad
  · rw [hbad.2 hb] at hF
    refine ⟨⟨?_, ?_⟩, ?_, ?_⟩
    · rintro ⟨l, hl⟩; rw [hF] at hl; cases hl
    · rintro ⟨h1, h2, -⟩
      rcases hb with h0 | h0
      · exact absurd h0 h1
      · exact absurd h0 (not_le.2 h2)
    · intro err herr
      rw [hF] at herr
      cases herr
      exact ⟨Or.inl rfl, fun _ => hb, fun _ => rfl⟩
    · intro l hl; rw [hF] at hl; cases hl
  · have hb' : (∑ i ∈ Finset.range n, so i) ≠ 0 ∧
        |(∑ i ∈ Finset.range n, so i) - ∑ i ∈ Finset.range n, si i|
          < 1e-6 * |∑ i ∈ Finset.range n, so i| := by
      simp only [bad, not_or, not_le] at hb
      exact hb
    obtain ⟨w1, w2, w3⟩ := C62_weights K (d k) n _ _ (column_sorted (n := n) hx k)
      (column_sorted (n := n) hy k) column_lt column_lt dyad co ci s v e hv
      (by rw [ho]; exact hb'.1) (by rw [ho, hi]; exact hb'.2)
    dsimp only at w1 w2
    have hex : (∃ i j, (i, j) ∈ Law.pairs n s ∧
        v i j < K.q (d k * entry (column n x k) i * entry (column n y k) j) ∧
        (co.lookup i).isSome ≠ (ci.lookup j).isSome) ↔ ¬ LayerOk n s q v so si sto sti := by
      have : LayerOk n s q v so si sto sti ↔ ∀ i j, (i, j) ∈ Law.pairs n s → v i j < q (i, j) →
          (sto i ↔ sti j) := ⟨fun h => h.2.2, fun h => ⟨hb'.1, hb'.2, h⟩⟩
      rw [this]
      push Not
      constructor
      · rintro ⟨i, j, h1, h2, h3⟩
        obtain ⟨b1, b2, -⟩ := Law.mem_pairs.1 h1
        refine ⟨i, j, h1, by rw [← hq i j h1]; exact h2, ?_⟩
        have := mt Bool.eq_iff_iff.2 h3
        rw [(ho' i b1).2, (hi' j b2).2] at this
        tauto
      · rintro ⟨i, j, h1, h2, h3⟩
        obtain ⟨b1, b2, -⟩ := Law.mem_pairs.1 h1
        refine ⟨i, j, h1, by rw [hq i j h1]; exact h2, ?_⟩
        intro hc
        have := Bool.eq_iff_iff.1 hc
        rw [(ho' i b1).2, (hi' j b2).2] at this
        tauto
    rcases w3 with hr | ⟨l0, hr⟩
    · have hno := hex.1 (w1.1 hr)
      rw [hr] at hF
      refine ⟨⟨?_, fun h => absurd h hno⟩, ?_, ?_⟩
      · rintro ⟨l, hl⟩; rw [hF] at hl; cases hl
      · intro err herr
        rw [hF] at herr
        cases herr
        exact ⟨Or.inr rfl, nofun, fun h => absurd h hb⟩
      · intro l hl; rw [hF] at hl; cases hl
    · have hyes : LayerOk n s q v so si sto sti := by
        by_contra hc
        have := w1.2 (hex.2 hc)
        rw [hr] at this
        cases this
      obtain ⟨n1, n2⟩ := w2 l0 hr
      rw [hr] at hF
      refine ⟨⟨fun _ => hyes, fun _ => ⟨l0, hF⟩⟩, ?_, ?_⟩
      · intro err herr; rw [hF] at herr; cases herr
      · intro l hl
        rw [hF] at hl
        cases hl
        refine ⟨n1, fun i j w => (n2 i j w).trans ?_⟩
        refine and_congr_right (fun hp => ?_)
        obtain ⟨b1, b2, -⟩ := Law.mem_pairs.1 hp
        rw [hq i j hp, (ho' i b1).1, (hi' j b2).1, ho]

/-! ## C74, sparse backend -/

/-- **C74**, sparse backend without weights: the sampled object carries the number of vertices and
labels, names and groups, and layer `k` of its adjacency matrices is exactly the set of links drawn
for label `k`, stored as booleans.  Missing: the argument `selfloops` has no effect
(`C74_violated`). -/
theorem C74_sparse_partial (K : Kind) (n L : ℕ) (hn : n < 2 ^ 64) (hL : L < 2 ^ 64) (d : ℕ → ℝ≥0∞)
    (x y : ℕ → List (ℕ × ℝ≥0∞)) (hx : ∀ i, RowSorted (x i)) (hy : ∀ i, RowSorted (y i))
    (dyad : ℕ → ℕ → XR) (s : Bool) (ref : Option (Ref ι γ κ)) (hr : RefOk ref)
    (so si : Strength) (hso : so.Fits n L) (hsi : si.Fits n L) (sl : Option Bool)
    (u : ℕ → ℝ) (v e : ℕ → ℕ → ℕ → ℝ) :
    ∃ g, Sparse.sample (sparseObj K n L (some d) x y dyad s) ref .none so si sl u v e = .ok g ∧
      Described n L ref g ∧
      ∀ k < L, (∃ A, g.adj k = .bool A) ∧ ∃ l, (sample_stream K.link.p_ijk n L (fun k => ofENN (d k))
        (fun i => rowX (x i)) (fun i => rowX (y i)) dyad s u).2[k]? = some l ∧
        (g.adj k).Links {p | p ∈ l} := by
  obtain ⟨mk, hmk, hmk2⟩ := header_ok (A := Adj) hn hL hr
  obtain ⟨co, hco⟩ := columns_exists hso (fun k => (column n (fun i => rowX (x i)) k).map
    (fun e => (e.1, real e.2)))
  obtain ⟨ci, hci⟩ := columns_exists hsi (fun k => (column n (fun i => rowX (y i)) k).map
    (fun e => (e.1, real e.2)))
  have hrun : Sparse.sample (sparseObj K n L (some d) x y dyad s) ref .none so si sl u v e
      = .ok (mk (fun k => .bool (coo (boolRows (((sample_stream K.link.p_ijk n L
        (fun k => ofENN (d k)) (fun i => rowX (x i)) (fun i => rowX (y i)) dyad s u).2[k]?).getD
          []))))) := by
    show (header n L ref >>= fun mk => _) = _
    rw [hmk]
    show (so.columns n L (fun k => (column n (fun i => rowX (x i)) k).map
      (fun e => (e.1, real e.2))) >>= fun _ => _) = _
    rw [hco]
    show (si.columns n L (fun k => (column n (fun i => rowX (y i)) k).map
      (fun e => (e.1, real e.2))) >>= fun _ => _) = _
    rw [hci]
    rfl
  refine ⟨_, hrun, (hmk2 _).1, fun k hk => ?_⟩
  rw [(hmk2 _).2]
  refine ⟨⟨_, rfl⟩, _, mem_sample_stream K n L d x y hx hy dyad s u hk, ?_⟩
  intro i j
  refine (coo_bool _ i j).trans ?_
  have h := mem_sample_stream K n L d x y hx hy dyad s u hk
  dsimp only at h
  rw [h, Option.getD_some]
  rfl

/-- **C74**, sparse backend: over independent uniform numbers the adjacency matrices of the sampled
object are those of `G` with the probability of `G` in the ensemble. -/
theorem C74_sparse_law (K : Kind) (n L : ℕ) (hn : n < 2 ^ 64) (hL : L < 2 ^ 64) (d : ℕ → ℝ≥0∞)
    (x y : ℕ → List (ℕ × ℝ≥0∞)) (hx : ∀ i, RowSorted (x i)) (hy : ∀ i, RowSorted (y i))
    (dyad : ℕ → ℕ → XR) (s : Bool) (ref : Option (Ref ι γ κ)) (hr : RefOk ref)
    (so si : Strength) (hso : so.Fits n L) (hsi : si.Fits n L) (sl : Option Bool)
    (v e : ℕ → ℕ → ℕ → ℝ)
    {Ω : Type} [MeasurableSpace Ω] (P : Measure Ω) (U : ℕ → Ω → ℝ) (hU : IsUniform P U)
    (G : ℕ → Finset (ℕ × ℕ)) (hG : ∀ k < L, G k ⊆ Law.pairs n s) :
    P {ω | ∃ g, Sparse.sample (sparseObj K n L (some d) x y dyad s) ref .none so si sl
          (fun m => U m ω) v e = .ok g ∧ ∀ k < L, (g.adj k).Links (G k : Set (ℕ × ℕ))}
      = ENNReal.ofReal
          (∏ k ∈ Finset.range L, Law.prob (Law.pairs n s) (layerProb K d x y k) (G k)) := by
  rw [← C62_law K n L d x y hx hy dyad s P U hU G hG]
  congr 1
  ext ω
  obtain ⟨g, hg, -, hA⟩ := C74_sparse_partial K n L hn hL d x y hx hy dyad s ref hr so si hso hsi sl
    (fun m => U m ω) v e
  simp only [Set.mem_ofPred_eq]
  have hk : ∀ k < L, (g.adj k).Links (G k : Set (ℕ × ℕ)) ↔
      ((sample_stream K.link.p_ijk n L (fun k => ofENN (d k)) (fun i => rowX (x i))
        (fun i => rowX (y i)) dyad s (fun m => U m ω)).2)[k]?.map List.toFinset = some (G k) := by
    intro k hk
    obtain ⟨⟨A, hA1⟩, l, hl, hA2⟩ := hA k hk
    rw [hl, Option.map_some, Option.some_inj, hA1]
    rw [hA1] at hA2
    constructor
    · intro h
      ext ⟨i, j⟩
      rw [List.mem_toFinset]
      exact (hA2 i j).symm.trans (h i j)
    · intro h i j
      refine (hA2 i j).trans ?_
      rw [Finset.mem_coe, ← h, List.mem_toFinset]
      rfl
  constructor
  · rintro ⟨g', hg', h⟩
    rw [hg] at hg'
    cases hg'
    exact fun k hkL => (hk k hkL).1 (h k hkL)
  · intro h
    exact ⟨g, hg, fun k hkL => (hk k hkL).2 (h k hkL)⟩

/-- **C74**, sparse backend with weights: accepted exactly when every layer is, and then the entry of
a drawn link is its weight and all other entries are zero. -/
theorem C74_sparse_weights (K : Kind) (n L : ℕ) (hn : n < 2 ^ 64) (hL : L < 2 ^ 64) (d : ℕ → ℝ≥0∞)
    (x y : ℕ → List (ℕ × ℝ≥0∞)) (hx : ∀ i, RowSorted (x i)) (hy : ∀ i, RowSorted (y i))
    (hxf : ∀ i, ∀ a ∈ x i, a.2 ≠ ∞) (hyf : ∀ i, ∀ a ∈ y i, a.2 ≠ ∞)
    (dyad : ℕ → ℕ → XR) (s : Bool) (ref : Option (Ref ι γ κ)) (hr : RefOk ref)
    (so si : Strength) (hso : so.Fits n L) (hsi : si.Fits n L) (sl : Option Bool)
    (u : ℕ → ℝ) (v e : ℕ → ℕ → ℕ → ℝ) (hv : ∀ k i j, 0 ≤ v k i j) :
    let r := Sparse.sample (sparseObj K n L (some d) x y dyad s) ref .cremb so si sl u v e
    let ok := fun k => LayerOk n s (layerProb K d x y k) (v k) (fun i => so.value x i k)
      (fun j => si.value y j k) (fun i => so.stored x i k) (fun j => si.stored y j k)
    ((∃ g, r = .ok g) ↔ ∀ k < L, ok k) ∧
    (∀ err, r = .error err → ∃ k < L, ¬ ok k ∧ (∀ k' < k, ok k') ∧
      (err = .strengthsDiffer ∨ err = .emptySelection) ∧
      (err = .strengthsDiffer ↔ ((∑ i ∈ Finset.range n, so.value x i k) = 0 ∨
        1e-6 * |∑ i ∈ Finset.range n, so.value x i k|
          ≤ |(∑ i ∈ Finset.range n, so.value x i k) - ∑ i ∈ Finset.range n, si.value y i k|))) ∧
    ∀ g, r = .ok g → Described n L ref g ∧ ∀ k < L, ∃ A, g.adj k = .float A ∧ ∀ i j,
      ((i, j) ∈ Law.pairs n s → v k i j < layerProb K d x y k (i, j) →
        A i j = so.value x i k * si.value y j k /
          ((∑ i ∈ Finset.range n, so.value x i k) * layerProb K d x y k (i, j)) * e k i j) ∧
      (¬ ((i, j) ∈ Law.pairs n s ∧ v k i j < layerProb K d x y k (i, j)) → A i j = 0) := by
  intro r ok
  obtain ⟨mk, hmk, hmk2⟩ := header_ok (A := Adj) hn hL hr
  obtain ⟨co, hco, hco'⟩ := columns_ok (L := L) hx hxf hso
  obtain ⟨ci, hci, hci'⟩ := columns_ok (L := L) hy hyf hsi
  let F := fun k => Sparse.cremb_layer (sparseObj K n L (some d) x y dyad s) (fun k => ofENN (d k)) k
    (co k) (ci k) (v k) (e k)
  have hfacts := fun k => cremb_layer_facts K n L d x y hx hy dyad s k (co k) (ci k) _ _ _ _
    (hco' k).1 (hco' k).2 (hci' k).1 (hci' k).2 (v k) (e k) (hv k)
  obtain ⟨c1, c2⟩ := collect F L
  have hrun : r = (List.range L).foldlM (fun acc k => do
        let l ← F k
        return acc ++ [l]) ([] : List (List ((ℕ × ℕ) × XR))) >>= fun layers =>
        .ok (mk (fun k => .float (coo (floatRows ((layers[k]?).getD []))))) := by
    show (header n L ref >>= fun mk => _) = _
    rw [hmk]
    show (so.columns n L (fun k => (column n (fun i => rowX (x i)) k).map
      (fun e => (e.1, real e.2))) >>= fun _ => _) = _
    rw [hco]
    show (si.columns n L (fun k => (column n (fun i => rowX (y i)) k).map
      (fun e => (e.1, real e.2))) >>= fun _ => _) = _
    rw [hci]
    rfl
  cases hc : (List.range L).foldlM (fun acc k => do
        let l ← F k
        return acc ++ [l]) ([] : List (List ((ℕ × ℕ) × XR))) with
  | error err =>
    have hr' : r = .error err := by rw [hrun, hc]; rfl
    obtain ⟨k, hk, h1, h2⟩ := (c2 err).1 hc
    have hnok : ¬ ok k := by
      intro h
      obtain ⟨l, hl⟩ := (hfacts k).1.2 h
      rw [show Sparse.cremb_layer _ _ k _ _ _ _ = F k from rfl, h1] at hl
      cases hl
    refine ⟨⟨?_, fun h => absurd (h k hk) hnok⟩, ?_, ?_⟩
    · rintro ⟨g, hg⟩; rw [hr'] at hg; cases hg
    · intro err' herr
      rw [hr'] at herr
      cases herr
      exact ⟨k, hk, hnok, fun k' hk' => (hfacts k').1.1 (h2 k' hk'), (hfacts k).2.1 err h1⟩
    · intro g hg; rw [hr'] at hg; cases hg
  | ok ls =>
    have hr' : r = .ok (mk (fun k => .float (coo (floatRows ((ls[k]?).getD []))))) := by
      rw [hrun, hc]; rfl
    obtain ⟨hlen, hall⟩ := c1 ls hc
    refine ⟨⟨fun _ k hk => ?_, fun _ => ⟨_, hr'⟩⟩, ?_, ?_⟩
    · obtain ⟨l, hl, -⟩ := hall k hk
      exact (hfacts k).1.1 ⟨l, hl⟩
    · intro err herr; rw [hr'] at herr; cases herr
    · intro g hg
      rw [hr'] at hg
      cases hg
      refine ⟨(hmk2 _).1, fun k hk => ?_⟩
      obtain ⟨l, hl, hlk⟩ := hall k hk
      obtain ⟨hnd, hmem⟩ := (hfacts k).2.2 l hl
      rw [(hmk2 _).2]
      refine ⟨_, rfl, fun i j => ?_⟩
      rw [hlk, Option.getD_some]
      obtain ⟨f1, f2⟩ := coo_float hnd i j
      constructor
      · intro hp hlt
        exact f1 _ ((hmem i j _).2 ⟨hp, hlt, rfl⟩)
      · intro hno
        refine f2 (fun h => hno ?_)
        obtain ⟨⟨a, w⟩, ha, hae⟩ := List.mem_map.1 h
        cases hae
        have := (hmem i j w).1 ha
        exact ⟨this.1, this.2.1⟩

/-! ## C74, dense backend -/

theorem check_ok {n L : ℕ} {s : Strength} (hs : s.Fits n L) : s.check n L = .ok () := by
  cases s with
  | none => rfl
  | array sh a => exact if_pos hs
  | sparse m => exact if_pos hs.1
  | other => exact hs.elim

/-- A tensor of ones. -/
theorem assignT_ones (l : List (ℕ × ℕ × ℕ)) (k i j : ℕ) :
    ((k, i, j) ∈ l → Graph.Dense.assignT (l.map (fun x => (x.1, (⟨x.2.1, x.2.2, 1⟩ : Row ℕ ℝ)))) k i j = 1)
    ∧ ((k, i, j) ∉ l →
      Graph.Dense.assignT (l.map (fun x => (x.1, (⟨x.2.1, x.2.2, 1⟩ : Row ℕ ℝ)))) k i j = 0) := by
  induction l using List.reverseRecOn with
  | nil => exact ⟨by simp, fun _ => rfl⟩
  | append_singleton t a ih =>
    have e1 : Graph.Dense.assignT ((t ++ [a]).map (fun x => (x.1, (⟨x.2.1, x.2.2, 1⟩ : Row ℕ ℝ)))) k i j
        = if k = a.1 ∧ i = a.2.1 ∧ j = a.2.2 then 1 else
          Graph.Dense.assignT (t.map (fun x => (x.1, (⟨x.2.1, x.2.2, 1⟩ : Row ℕ ℝ)))) k i j := by
      simp [Graph.Dense.assignT]
    rw [e1]
    by_cases h : k = a.1 ∧ i = a.2.1 ∧ j = a.2.2
    · rw [if_pos h]
      refine ⟨fun _ => rfl, fun hn => ?_⟩
      exfalso
      apply hn
      rw [h.1, h.2.1, h.2.2]
      simp
    · rw [if_neg h]
      have : (k, i, j) ∈ t ++ [a] ↔ (k, i, j) ∈ t := by
        rw [List.mem_append, List.mem_singleton]
        refine or_iff_left (fun hc => h ?_)
        rw [← hc]; exact ⟨rfl, rfl, rfl⟩
      rw [this]
      exact ih

/-- **C74**, dense backend without weights: links are stored as ones in an array of floats.  Missing:
weighted samples always raise (`C74_violated`). -/
theorem C74_dense_partial (K : Kind) (n L : ℕ) (hn : n < 2 ^ 64) (hL : L < 2 ^ 64) (d : ℕ → ℝ≥0∞)
    (x y : ℕ → ℕ → ℝ≥0∞) (dyad : ℕ → ℕ → XR) (s : Bool) (ref : Option (Ref ι γ κ)) (hr : RefOk ref)
    (so si : Strength) (hso : so.Fits n L) (hsi : si.Fits n L) (sl : Option Bool) (u : ℕ → ℝ) :
    ∃ g, Dense.sample (denseObj K n L (some d) x y dyad s) ref .none so si sl u = .ok g ∧
      Described n L ref g ∧
      ∀ k, (∃ A, g.adj k = .float A) ∧
        (g.adj k).Links {p | (k, p) ∈ (Dense.binary_sample_tensor_stream K.link.p_ijk n L
          (fun k => ofENN (d k)) (fun i k => ofENN (x i k)) (fun i k => ofENN (y i k)) dyad s u).2} := by
  obtain ⟨mk, hmk, hmk2⟩ := header_ok (A := Adj) hn hL hr
  have hst : (Dense.binary_sample_tensor_stream K.link.p_ijk n L (fun k => ofENN (d k))
        (fun i k => (denseX L (x i)).getD k 0) (fun i k => (denseX L (y i)).getD k 0) dyad s u)
      = (Dense.binary_sample_tensor_stream K.link.p_ijk n L
          (fun k => ofENN (d k)) (fun i k => ofENN (x i k)) (fun i k => ofENN (y i k)) dyad s u) := by
    unfold Dense.binary_sample_tensor_stream
    refine List.foldl_ext _ _ _ (fun st k hk => ?_)
    simp only [Layer.Method.denseX_getD (List.mem_range.1 hk)]
  have hrun : Dense.sample (denseObj K n L (some d) x y dyad s) ref .none so si sl u
      = .ok (mk (fun k => .float (Graph.Dense.assignT (((Dense.binary_sample_tensor_stream
        K.link.p_ijk n L (fun k => ofENN (d k)) (fun i k => (denseX L (x i)).getD k 0)
        (fun i k => (denseX L (y i)).getD k 0) dyad s u).2).map
          (fun x => (x.1, (⟨x.2.1, x.2.2, 1⟩ : Row ℕ ℝ)))) k))) := by
    show (header n L ref >>= fun mk => _) = _
    rw [hmk]
    show (so.check n L >>= fun _ => _) = _
    rw [check_ok hso]
    show (si.check n L >>= fun _ => _) = _
    rw [check_ok hsi]
    rfl
  refine ⟨_, hrun, (hmk2 _).1, fun k => ?_⟩
  rw [(hmk2 _).2, hst]
  exact ⟨⟨_, rfl⟩, fun i j => assignT_ones _ k i j⟩

/-- **C74**, law for the dense backend. -/
theorem C74_dense_law (K : Kind) (n L : ℕ) (hn : n < 2 ^ 64) (hL : L < 2 ^ 64) (d : ℕ → ℝ≥0∞)
    (x y : ℕ → ℕ → ℝ≥0∞) (dyad : ℕ → ℕ → XR) (s : Bool) (ref : Option (Ref ι γ κ)) (hr : RefOk ref)
    (so si : Strength) (hso : so.Fits n L) (hsi : si.Fits n L) (sl : Option Bool)
    {Ω : Type} [MeasurableSpace Ω] (P : Measure Ω) (U : ℕ → Ω → ℝ) (hU : IsUniform P U)
    (G : ℕ → Finset (ℕ × ℕ)) (hG : ∀ k < L, G k ⊆ Law.pairs n s) :
    P {ω | ∃ g, Dense.sample (denseObj K n L (some d) x y dyad s) ref .none so si sl
          (fun m => U m ω) = .ok g ∧ ∀ k < L, (g.adj k).Links (G k : Set (ℕ × ℕ))}
      = ENNReal.ofReal
          (∏ k ∈ Finset.range L, Law.prob (Law.pairs n s) (denseProb K d x y k) (G k)) := by
  rw [← C62_dense_law K n L d x y dyad s P U hU G hG]
  congr 1
  ext ω
  obtain ⟨g, hg, -, hA⟩ := C74_dense_partial K n L hn hL d x y dyad s ref hr so si hso hsi sl
    (fun m => U m ω)
  simp only [Set.mem_ofPred_eq]
  have hk : ∀ k, (g.adj k).Links (G k : Set (ℕ × ℕ)) ↔ ∀ i j,
      (k, i, j) ∈ (Dense.binary_sample_tensor_stream K.link.p_ijk n L (fun k => ofENN (d k))
        (fun i k => ofENN (x i k)) (fun i k => ofENN (y i k)) dyad s (fun m => U m ω)).2 ↔
        (i, j) ∈ G k := by
    intro k
    obtain ⟨⟨A, hA1⟩, hA2⟩ := hA k
    rw [hA1] at hA2
    rw [hA1]
    constructor
    · intro h i j
      constructor
      · intro hm
        by_contra hc
        have h1 := (hA2 i j).1 hm
        rw [(h i j).2 hc] at h1
        exact zero_ne_one h1
      · intro hm
        by_contra hc
        have h1 := (hA2 i j).2 hc
        rw [(h i j).1 hm] at h1
        exact one_ne_zero h1
    · intro h i j
      exact ⟨fun hm => (hA2 i j).1 ((h i j).2 hm), fun hm => (hA2 i j).2 (fun hc => hm ((h i j).1 hc))⟩
  constructor
  · rintro ⟨g', hg', h⟩
    rw [hg] at hg'
    cases hg'
    exact fun k hkL => (hk k).1 (h k hkL)
  · intro h
    exact ⟨g, hg, fun k hkL => (hk k).2 (h k hkL)⟩

/-! ## C74, errors -/

/-- The shape of a strength argument. -/
def Strength.shape : Strength → Option (ℕ × ℕ)
  | .array sh _ => some sh
  | .sparse m => some m.shape
  | _ => Option.none

/-- The shape is right or there is nothing to check. -/
def Strength.ShapeOk (n L : ℕ) (s : Strength) : Prop := s ≠ .other ∧ ∀ sh, s.shape = some sh → sh = (n, L)

theorem columns_cases (s : Strength) (n L : ℕ) (f : ℕ → List (ℕ × ℝ)) :
    (s = .other → s.columns n L f = .error .strengthType) ∧
    (∀ sh, s.shape = some sh → sh ≠ (n, L) → s.columns n L f = .error .strengthShape) ∧
    (s.ShapeOk n L → ∃ c, s.columns n L f = .ok c) := by
  cases s with
  | none => exact ⟨nofun, nofun, fun _ => ⟨_, rfl⟩⟩
  | array sh a =>
    refine ⟨nofun, fun sh' h hne => ?_, fun h => ⟨_, if_pos (h.2 _ rfl)⟩⟩
    cases h; exact if_neg hne
  | sparse m =>
    refine ⟨nofun, fun sh' h hne => ?_, fun h => ⟨_, if_pos (h.2 _ rfl)⟩⟩
    cases h; exact if_neg hne
  | other => exact ⟨fun _ => rfl, nofun, fun h => absurd rfl h.1⟩

theorem check_cases (s : Strength) (n L : ℕ) :
    (s = .other → s.check n L = .error .strengthType) ∧
    (∀ sh, s.shape = some sh → sh ≠ (n, L) → s.check n L = .error .strengthShape) ∧
    (s.ShapeOk n L → s.check n L = .ok ()) := by
  cases s with
  | none => exact ⟨nofun, nofun, fun _ => rfl⟩
  | array sh a =>
    refine ⟨nofun, fun sh' h hne => ?_, fun h => if_pos (h.2 _ rfl)⟩
    cases h; exact if_neg hne
  | sparse m =>
    refine ⟨nofun, fun sh' h hne => ?_, fun h => if_pos (h.2 _ rfl)⟩
    cases h; exact if_neg hne
  | other => exact ⟨fun _ => rfl, nofun, fun h => absurd rfl h.1⟩

omit [DecidableEq ι] [DecidableEq κ] in
theorem header_dtype {A : Type} {n L : ℕ} (h : 2 ^ 64 ≤ n ∨ 2 ^ 64 ≤ L) (ref : Option (Ref ι γ κ)) :
    header (A := A) n L ref = .error .dtype := by
  unfold header
  rw [if_neg]
  rintro ⟨h1, h2⟩
  have := (Graph.C26_valid n).1 h1
  have := (Graph.C26_valid L).1 h2
  omega

omit [DecidableEq ι] [DecidableEq κ] in
theorem header_label {A : Type} {n L : ℕ} (hn : n < 2 ^ 64) (hL : L < 2 ^ 64) {r : Ref ι γ κ}
    (hr : r.label_dict = none) : header (A := A) n L (some r) = .error .noLabelDict := by
  unfold header
  rw [if_pos ⟨(Graph.C26_valid n).2 hn, (Graph.C26_valid L).2 hL⟩]
  simp only [hr]

/-- **C74**, errors of the sparse backend, in the order of the tests. -/
theorem C74_sparse_errors (o : Layer.Method.Obj (List (ℕ × XR))) (ref : Option (Ref ι γ κ))
    (w : Weights) (so si : Strength) (sl : Option Bool) (u : ℕ → ℝ) (v e : ℕ → ℕ → ℕ → ℝ) :
    let r := Sparse.sample o ref w so si sl u v e
    let n := o.num_vertices
    let L := o.num_labels
    (o.param = none → r = .error .notFitted) ∧
    (o.param ≠ none → (2 ^ 64 ≤ n ∨ 2 ^ 64 ≤ L → r = .error .dtype) ∧
      (n < 2 ^ 64 → L < 2 ^ 64 →
        (¬ RefOk ref → r = .error .noLabelDict) ∧
        (RefOk ref →
          (so = .other → r = .error .strengthType) ∧
          (∀ sh, so.shape = some sh → sh ≠ (n, L) → r = .error .strengthShape) ∧
          (so.ShapeOk n L →
            (si = .other → r = .error .strengthType) ∧
            (∀ sh, si.shape = some sh → sh ≠ (n, L) → r = .error .strengthShape) ∧
            (si.ShapeOk n L → w = .other →
              (L ≠ 0 → r = .error .badWeights) ∧ (L = 0 → ∃ g, r = .ok g)))))) := by
  intro r n L
  refine ⟨fun h => ?_, fun h => ?_⟩
  · simp only [r]
    unfold Sparse.sample
    rw [h]
  obtain ⟨θ, hθ⟩ := Option.ne_none_iff_exists'.1 h
  let col := fun (prop : ℕ → List (ℕ × XR)) k =>
      (Layer.column n prop k).map (fun e => (e.1, real e.2))
  have hrun : ∃ F : ((ℕ → Adj) → MultiObj ι γ κ Adj) → (ℕ → List (ℕ × ℝ)) → (ℕ → List (ℕ × ℝ)) →
      Except Err (MultiObj ι γ κ Adj),
      r = (header n L ref >>= fun mk => so.columns n L (col o.prop_out) >>= fun s_out =>
      si.columns n L (col o.prop_in) >>= fun s_in => F mk s_out s_in) ∧
      (w = .other → ∀ mk a b, F mk a b
        = if L = 0 then .ok (mk (fun _ => .bool (coo []))) else .error .badWeights) := by
    simp only [r]
    unfold Sparse.sample
    rw [hθ]
    refine ⟨_, rfl, ?_⟩
    intro hw mk a b
    rw [hw]
  obtain ⟨F, hrun, hF⟩ := hrun
  refine ⟨fun hbig => ?_, fun hn hL => ⟨fun hr => ?_, fun hr => ?_⟩⟩
  · rw [hrun, header_dtype hbig]; rfl
  · unfold RefOk at hr
    push Not at hr
    obtain ⟨r0, rfl, h0⟩ := hr
    rw [hrun, header_label hn hL h0]; rfl
  obtain ⟨mk, hmk, -⟩ := header_ok (A := Adj) hn hL hr
  rw [hmk] at hrun
  obtain ⟨a1, a2, a3⟩ := columns_cases so n L (col o.prop_out)
  obtain ⟨b1, b2, b3⟩ := columns_cases si n L (col o.prop_in)
  refine ⟨fun h1 => ?_, fun sh h1 h2 => ?_, fun h1 => ?_⟩
  · rw [hrun]
    show (so.columns n L (col o.prop_out) >>= fun _ => _) = _
    rw [a1 h1]; rfl
  · rw [hrun]
    show (so.columns n L (col o.prop_out) >>= fun _ => _) = _
    rw [a2 sh h1 h2]; rfl
  obtain ⟨co, hco⟩ := a3 h1
  rw [hco] at hrun
  refine ⟨fun h2 => ?_, fun sh h2 h3 => ?_, fun h2 hw => ?_⟩
  · rw [hrun]
    show (si.columns n L (col o.prop_in) >>= fun _ => _) = _
    rw [b1 h2]; rfl
  · rw [hrun]
    show (si.columns n L (col o.prop_in) >>= fun _ => _) = _
    rw [b2 sh h2 h3]; rfl
  obtain ⟨ci, hci⟩ := b3 h2
  rw [hci] at hrun
  replace hrun : r = if L = 0 then .ok (mk (fun _ => .bool (coo []))) else .error .badWeights :=
    hrun.trans (hF hw mk co ci)
  exact ⟨fun h0 => hrun.trans (if_neg h0), fun h0 => ⟨_, hrun.trans (if_pos h0)⟩⟩

/-- **C74**, errors of the dense backend: the same tests, weights are checked once, and
`"cremb"` never works. -/
theorem C74_dense_errors (o : Layer.Method.Obj (List XR)) (ref : Option (Ref ι γ κ))
    (w : Weights) (so si : Strength) (sl : Option Bool) (u : ℕ → ℝ) :
    let r := Dense.sample o ref w so si sl u
    let n := o.num_vertices
    let L := o.num_labels
    (o.param = none → r = .error .notFitted) ∧
    (o.param ≠ none → (2 ^ 64 ≤ n ∨ 2 ^ 64 ≤ L → r = .error .dtype) ∧
      (n < 2 ^ 64 → L < 2 ^ 64 →
        (¬ RefOk ref → r = .error .noLabelDict) ∧
        (RefOk ref →
          (so = .other → r = .error .strengthType) ∧
          (∀ sh, so.shape = some sh → sh ≠ (n, L) → r = .error .strengthShape) ∧
          (so.ShapeOk n L →
            (si = .other → r = .error .strengthType) ∧
            (∀ sh, si.shape = some sh → sh ≠ (n, L) → r = .error .strengthShape) ∧
            (si.ShapeOk n L → (w = .other → r = .error .badWeights) ∧
              (w = .cremb → r = .error .noCremb)))))) := by
  intro r n L
  refine ⟨fun h => ?_, fun h => ?_⟩
  · simp only [r]
    unfold Dense.sample
    rw [h]
  obtain ⟨θ, hθ⟩ := Option.ne_none_iff_exists'.1 h
  have hrun : ∃ F : ((ℕ → Adj) → MultiObj ι γ κ Adj) → Except Err (MultiObj ι γ κ Adj),
      r = (header n L ref >>= fun mk => so.check n L >>= fun _ =>
      si.check n L >>= fun _ => F mk) ∧ (w = .other → ∀ mk, F mk = .error .badWeights) ∧
      (w = .cremb → ∀ mk, F mk = .error .noCremb) := by
    simp only [r]
    unfold Dense.sample
    rw [hθ]
    refine ⟨_, rfl, ?_, ?_⟩
    · intro hw mk
      rw [hw]
    · intro hw mk
      rw [hw]
  obtain ⟨F, hrun, hF1, hF2⟩ := hrun
  refine ⟨fun hbig => ?_, fun hn hL => ⟨fun hr => ?_, fun hr => ?_⟩⟩
  · rw [hrun, header_dtype hbig]; rfl
  · unfold RefOk at hr
    push Not at hr
    obtain ⟨r0, rfl, h0⟩ := hr
    rw [hrun, header_label hn hL h0]; rfl
  obtain ⟨mk, hmk, -⟩ := header_ok (A := Adj) hn hL hr
  rw [hmk] at hrun
  obtain ⟨a1, a2, a3⟩ := check_cases so n L
  obtain ⟨b1, b2, b3⟩ := check_cases si n L
  refine ⟨fun h1 => ?_, fun sh h1 h2 => ?_, fun h1 => ?_⟩
  · rw [hrun]
    show (so.check n L >>= fun _ => _) = _
    rw [a1 h1]; rfl
  · rw [hrun]
    show (so.check n L >>= fun _ => _) = _
    rw [a2 sh h1 h2]; rfl
  rw [a3 h1] at hrun
  refine ⟨fun h2 => ?_, fun sh h2 h3 => ?_, fun h2 => ?_⟩
  · rw [hrun]
    show (si.check n L >>= fun _ => _) = _
    rw [b1 h2]; rfl
  · rw [hrun]
    show (si.check n L >>= fun _ => _) = _
    rw [b2 sh h2 h3]; rfl
  rw [b3 h2] at hrun
  exact ⟨fun hw => hrun.trans (hF1 hw mk), fun hw => hrun.trans (hF2 hw mk)⟩

/-! ## C74, violations -/

omit [DecidableEq ι] [DecidableEq κ] in
/-- The argument `selfloops` has no effect. -/
theorem C74_selfloops_ignored (o : Layer.Method.Obj (List (ℕ × XR))) (o' : Layer.Method.Obj (List XR))
    (ref : Option (Ref ι γ κ)) (w : Weights) (so si : Strength) (sl sl' : Option Bool) (u : ℕ → ℝ)
    (v e : ℕ → ℕ → ℕ → ℝ) :
    Sparse.sample o ref w so si sl u v e = Sparse.sample o ref w so si sl' u v e ∧
    Dense.sample o' ref w so si sl u = Dense.sample o' ref w so si sl' u := ⟨rfl, rfl⟩

/-- A certain self-loop. -/
def loopD : ℕ → ℝ≥0∞ := fun _ => ⊤

/-- Properties of one vertex with one label. -/
def loopX : ℕ → List (ℕ × ℝ≥0∞) := fun _ => [(0, 1)]

theorem loopX_sorted (i : ℕ) : RowSorted (loopX i) := by simp [loopX, RowSorted]

/-- **C74** fails: (1) called with `selfloops=False` the sample can contain a self-loop; (2) unknown
weights are accepted by the sparse backend when there are no labels; (3) the dense backend raises for
the documented weights in every case. -/
theorem C74_violated :
    (∀ (K : Kind) (u : ℕ → ℝ), (∀ k, 0 ≤ u k ∧ u k < 1) → ∀ v e,
      ∃ g : MultiObj ℕ ℕ ℕ Adj, Sparse.sample (sparseObj K 1 1 (some loopD) loopX loopX (fun _ _ => 1) true)
        none .none .none .none (some false) u v e = .ok g ∧ ∃ A, g.adj 0 = .bool A ∧ A 0 0 = true) ∧
    (∀ (K : Kind) u v e, ∃ g : MultiObj ℕ ℕ ℕ Adj,
      Sparse.sample (sparseObj K 1 0 (some loopD) loopX loopX (fun _ _ => 1) true)
        none .other .none .none none u v e = .ok g) ∧
    (∀ (K : Kind) (n L : ℕ) d x y dyad s (ref : Option (Ref ℕ ℕ ℕ)) so si sl u, ∃ err,
      Dense.sample (denseObj K n L (some d) x y dyad s) ref .cremb so si sl u = .error err) := by
  refine ⟨fun K u hu v e => ?_, fun K u v e => ?_, fun K n L d x y dyad s ref so si sl u => ?_⟩
  · obtain ⟨g, hg, -, hA⟩ := C74_sparse_partial (ι := ℕ) (γ := ℕ) (κ := ℕ) K 1 1 (by norm_num) (by norm_num)
      loopD loopX loopX loopX_sorted loopX_sorted (fun _ _ => 1) true none nofun .none .none trivial
      trivial (some false) u v e
    obtain ⟨⟨A, hA1⟩, l, hl, hA2⟩ := hA 0 (by norm_num)
    refine ⟨g, hg, A, hA1, ?_⟩
    rw [hA1] at hA2
    refine (hA2 0 0).2 ?_
    obtain ⟨-, hval⟩ := C62_valid K 1 1 loopD loopX loopX loopX_sorted loopX_sorted (fun _ _ => 1)
      true u hu
    obtain ⟨l', hl', -, -, h3⟩ := hval 0 (by norm_num)
    rw [hl] at hl'
    obtain rfl := Option.some.inj hl'
    refine h3 (0, 0) (by decide) ?_
    have : loopD 0 * entry (loopX 0) 0 * entry (loopX 0) 0 = ⊤ := by
      simp [loopD, loopX, entry]
    show K.q (loopD 0 * entry (loopX 0) 0 * entry (loopX 0) 0) = 1
    rw [this]
    cases K
    · exact fitProb_top
    · exact invProb_top
  · have h := (C74_sparse_errors (ι := ℕ) (γ := ℕ) (κ := ℕ)
      (sparseObj K 1 0 (some loopD) loopX loopX (fun _ _ => 1) true)
      none .other .none .none none u v e).2 nofun
    exact ((((h.2 (show 1 < 2 ^ 64 by norm_num) (show 0 < 2 ^ 64 by norm_num)).2 nofun).2.2
      ⟨nofun, nofun⟩).2.2 ⟨nofun, nofun⟩ rfl).2 rfl
  · obtain ⟨-, h⟩ := C74_dense_errors (denseObj K n L (some d) x y dyad s) ref .cremb so si sl u
    obtain ⟨h1, h2⟩ := h nofun
    by_cases hb : 2 ^ 64 ≤ n ∨ 2 ^ 64 ≤ L
    · exact ⟨_, h1 hb⟩
    · push Not at hb
      obtain ⟨h3, h4⟩ := h2 hb.1 hb.2
      by_cases hr : RefOk ref
      · obtain ⟨h5, h6, h7⟩ := h4 hr
        by_cases ho : so = .other
        · exact ⟨_, h5 ho⟩
        by_cases hos : ∀ sh, so.shape = some sh → sh = (n, L)
        · obtain ⟨h8, h9, h10⟩ := h7 ⟨ho, hos⟩
          by_cases hi : si = .other
          · exact ⟨_, h8 hi⟩
          by_cases his : ∀ sh, si.shape = some sh → sh = (n, L)
          · exact ⟨_, (h10 ⟨hi, his⟩).2 rfl⟩
          · push Not at his
            obtain ⟨sh, hsh, hne⟩ := his
            exact ⟨_, h9 sh hsh hne⟩
        · push Not at hos
          obtain ⟨sh, hsh, hne⟩ := hos
          exact ⟨_, h6 sh hsh hne⟩
      · exact ⟨_, h3 hr⟩

/-- The hypotheses of the theorems on weights can be met, with strengths given as an array. -/
example : (∀ i, RowSorted (loopX i)) ∧ (∀ i, ∀ a ∈ loopX i, a.2 ≠ ∞) ∧
    (Strength.array (2, 1) (fun _ _ => 1)).Fits 2 1 ∧
    LayerOk 2 false (layerProb .fit (fun _ => 1) loopX loopX 0) (fun _ _ => 0)
      (fun i => (Strength.array (2, 1) (fun _ _ => 1)).value loopX i 0)
      (fun i => (Strength.array (2, 1) (fun _ _ => 1)).value loopX i 0)
      (fun i => (Strength.array (2, 1) (fun _ _ => 1)).stored loopX i 0)
      (fun i => (Strength.array (2, 1) (fun _ _ => 1)).stored loopX i 0) := by
  refine ⟨loopX_sorted, by simp [loopX], rfl, ?_, ?_, ?_⟩
  · simp [Strength.value]
  · simp only [Strength.value]; norm_num
  · intro i j _ _
    simp [Strength.stored]

example : RefOk (some (⟨[(4, 0)], none, some [(7, 0)]⟩ : Ref ℕ ℕ ℕ)) ∧
    ¬ RefOk (some (⟨[(4, 0)], none, none⟩ : Ref ℕ ℕ ℕ)) := by
  constructor
  · rintro r h
    cases h
    simp
  · intro h
    exact h _ rfl rfl

end Sampled

end

end Verif
