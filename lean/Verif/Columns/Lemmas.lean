import Verif.Columns.Model
import Verif.Spark.QueryLemmas
import Verif.Graph.QueryProps
import Verif.Random.Props

/-! # Lemmas on arrays with several columns -/

namespace Verif

noncomputable section

open XR DiGraphEnsemble

namespace Columns

/-! ## Division -/

theorem average_none {α : Type} (z : Bool) (div : α → α → α) (n k : ℕ) (ind : ℕ → Bool)
    (av : ℕ → ℕ → α) (deg : ℕ → α)
    (h1 : ((List.range n).filter ind).length ≠ 1) (hk : ((List.range n).filter ind).length ≠ k)
    (h0 : ¬(((List.range n).filter ind).length = 0 ∧ k = 1 ∧ z = true)) :
    average z div n k ind av deg = none := by
  unfold average axis
  generalize hm : ((List.range n).filter ind).length = m at h1 hk h0
  simp only [hm]
  rw [if_neg (Ne.symm hk)]
  by_cases hk1 : k = 1
  · subst hk1
    simp only [if_true]
    rw [if_neg]
    rintro (h | h | h)
    · exact h1 h
    · exact h1 h
    · exact h0 ⟨h.1, rfl, h.2⟩
  · rw [if_neg hk1, if_neg h1]

theorem average_some {α : Type} (z : Bool) (div : α → α → α) (n k : ℕ) (ind : ℕ → Bool)
    (av : ℕ → ℕ → α) (deg : ℕ → α)
    (h : ((List.range n).filter ind).length = 1 ∨ ((List.range n).filter ind).length = k ∨
      (((List.range n).filter ind).length = 0 ∧ k = 1 ∧ z = true)) :
    ∃ v, average z div n k ind av deg = some v ∧ ∀ i < n, ∀ c < k,
      v i c = if ind i then div (av i c) (deg (if ((List.range n).filter ind).length = 1 then i
          else ((List.range n).filter ind).getD c 0))
        else av i c := by
  have hmem : ∀ i < n, ind i = true → i ∈ (List.range n).filter ind := fun i hi h =>
    List.mem_filter.2 ⟨List.mem_range.2 hi, h⟩
  unfold average axis
  generalize (List.range n).filter ind = sel at h hmem
  simp only
  by_cases h1 : sel.length = 1
  · obtain ⟨a, rfl⟩ := List.length_eq_one_iff.1 h1
    by_cases hk : k = 1
    · subst hk
      simp only [List.length_singleton, if_true, true_or]
      refine ⟨_, rfl, fun i hi c hc => ?_⟩
      obtain rfl : c = 0 := by omega
      by_cases hi' : ind i = true
      · have : i = a := by simpa using hmem i hi hi'
        simp [at1, this]
      · simp [hi']
    · simp only [List.length_singleton, if_neg hk, if_true, true_or]
      refine ⟨_, rfl, fun i hi c hc => ?_⟩
      by_cases hi' : ind i = true
      · have : i = a := by simpa using hmem i hi hi'
        simp [at1, this, hk]
      · simp [hi']
  · by_cases hk : k = sel.length
    · rw [if_pos hk]
      simp only [true_or, if_true]
      refine ⟨_, rfl, fun i hi c hc => ?_⟩
      simp [at1, h1, hk]
    · rw [if_neg hk]
      obtain ⟨h0, rfl, hz⟩ : sel.length = 0 ∧ k = 1 ∧ z = true := by
        rcases h with h | h | h
        · exact absurd h h1
        · exact absurd h.symm hk
        · exact h
      simp only [if_true, h0, hz, true_and, or_true]
      refine ⟨_, rfl, fun i hi c hc => ?_⟩
      have : ind i ≠ true := fun hi' => by
        have := hmem i hi hi'
        rw [List.length_eq_zero_iff.1 h0] at this
        simp at this
      simp [this]

/-! ## Columns of loops -/

/-- A column of an array. -/
def col (c : ℕ) (a : ℕ → ℕ → XR) : ℕ → XR := fun i => a i c

theorem col_addRow (c : ℕ) (a : ℕ → ℕ → XR) (i : ℕ) (v : ℕ → XR) :
    col c (addRow a i v) = addAt (col c a) i (v c) := by
  funext k
  unfold col addRow addAt
  by_cases h : k = i
  · subst h; simp
  · simp [h]

theorem foldlM_col {ι : Type} (c : ℕ) {f : (ℕ → ℕ → XR) → ι → Except NNErr (ℕ → ℕ → XR)}
    {g : (ℕ → XR) → ι → Except NNErr (ℕ → XR)}
    (h : ∀ a i, (f a i).map (col c) = g (col c a) i) (l : List ι) (a : ℕ → ℕ → XR) :
    (l.foldlM f a).map (col c) = l.foldlM g (col c a) := by
  induction l generalizing a with
  | nil => rfl
  | cons i l ih =>
    rw [List.foldlM_cons, List.foldlM_cons, ← h]
    cases f a i with
    | error e => rfl
    | ok b => exact ih b

/-- Column by column the loop is the loop for arrays with one dimension. -/
theorem exp_av_nn_prop_col {δ α β ζ : Type} (jUndef : ℕ) (p_ij : δ → α → β → ζ → XR) (param : δ)
    (n : ℕ) (prop_out : ℕ → α) (prop_in : ℕ → β) (prop_dyad : ℕ → ℕ → ζ) (prop : ℕ → ℕ → XR)
    (ndir : Dir) (s : Bool) (c : ℕ) :
    (exp_av_nn_prop jUndef p_ij param n prop_out prop_in prop_dyad prop ndir s).map (col c)
      = DiGraphEnsemble.exp_av_nn_prop jUndef p_ij param n prop_out prop_in prop_dyad
          (col c prop) ndir s := by
  have hpairs := foldlM_col (ι := ℕ) c
    (f := fun av_nn i => (List.range i).foldlM
      (exp_av_nn_step p_ij param prop_out prop_in prop_dyad prop ndir i) av_nn)
    (g := fun av_nn i => (List.range i).foldlM
      (DiGraphEnsemble.exp_av_nn_step p_ij param prop_out prop_in prop_dyad (col c prop) ndir i)
      av_nn)
    (fun a i => foldlM_col c (fun a j => by
      unfold exp_av_nn_step DiGraphEnsemble.exp_av_nn_step
      cases ndir <;> simp only [Except.map, col_addRow] <;> rfl) _ a)
    (List.range n) (fun _ _ => 0)
  unfold exp_av_nn_prop DiGraphEnsemble.exp_av_nn_prop
  dsimp only
  rw [show (zeros : ℕ → XR) = col c (fun _ _ => 0) from rfl, ← hpairs]
  cases (List.range n).foldlM (fun av_nn i => (List.range i).foldlM
      (exp_av_nn_step p_ij param prop_out prop_in prop_dyad prop ndir i) av_nn)
      (fun _ _ => 0) with
  | error e => rfl
  | ok a =>
    show (if s = true then _ else _ : Except NNErr (ℕ → ℕ → XR)).map (col c)
      = if s = true then _ else _
    by_cases hs : s = true
    · rw [if_pos hs, if_pos hs]
      exact foldlM_col c (fun a i => by
        unfold exp_av_nn_self DiGraphEnsemble.exp_av_nn_self
        cases ndir <;> simp only [Except.map, col_addRow] <;> rfl) _ a
    · rw [if_neg hs, if_neg hs]; rfl

theorem ok_of_cols {x : Except NNErr (ℕ → ℕ → XR)} {a : ℕ → ℕ → XR}
    (h : ∀ c, x.map (col c) = .ok (col c a)) : x = .ok a := by
  cases x with
  | error e => exact absurd (h 0) (by simp [Except.map])
  | ok b =>
    congr 1
    funext i c
    have := h c
    simp only [Except.map, Except.ok.injEq] at this
    exact congrFun this i

/-- The loop of a coherent ensemble. -/
theorem exp_av_nn_prop_eq {E : Ens} (hE : E.Coherent) (hd : Query.DyadConst E) (jUndef n : ℕ)
    (x : ℕ → ℕ → ℝ) (ndir : Dir) (hdir : ndir.Known) (s : Bool) :
    exp_av_nn_prop jUndef E.p_ij E.param n E.prop_out E.prop_in E.prop_dyad
        (fun i c => fin (x i c)) ndir s
      = .ok (fun k c => fin ((∑ i ∈ Finset.range n, ∑ j ∈ Finset.range n,
          (Pi.single i (Query.weight (fun i j => E.prob (i, j)) s ndir i j * x j c)
            : ℕ → ℝ)) k)) := by
  refine ok_of_cols fun c => ?_
  rw [exp_av_nn_prop_col]
  exact Query.exp_av_nn_prop_eq hE hd jUndef n (fun i => x i c) ndir hdir s

/-! ## Spark jobs -/

theorem exp_av_nn_block_col {δ α β ζ : Type} (p_ij : δ → α → β → ζ → XR) (param : δ)
    (ind_out ind_in : ℕ × ℕ) (prop_out : (ℕ → α) × (ℕ → α)) (prop_in : (ℕ → β) × (ℕ → β))
    (prop_dyad : ℕ → ℕ → ζ) (prop : ℕ → ℕ → XR) (ndir : Dir) (s : Bool) (c : ℕ) :
    (exp_av_nn_block p_ij param ind_out ind_in prop_out prop_in prop_dyad prop ndir s).map (col c)
      = Spark.exp_av_nn_prop p_ij param ind_out ind_in prop_out prop_in prop_dyad
          (col c prop) ndir s := by
  unfold exp_av_nn_block Spark.exp_av_nn_prop
  dsimp only
  rw [show (zeros : ℕ → XR) = col c (fun _ _ => 0) from rfl]
  refine foldlM_col (ι := ℕ) c
    (f := fun av_nn i => (List.range (Spark.inRange i ind_in (decide (ind_out = ind_in)))).foldlM
      (exp_av_nn_block_step p_ij param ind_out ind_in prop_out prop_in prop_dyad prop ndir s i)
      av_nn)
    (g := fun av_nn i => (List.range (Spark.inRange i ind_in (decide (ind_out = ind_in)))).foldlM
      (Spark.exp_av_nn_step p_ij param ind_out ind_in prop_out prop_in prop_dyad (col c prop) ndir
        s i) av_nn) (fun a i => foldlM_col c (fun a j => ?_) _ a) _ _
  unfold exp_av_nn_block_step Spark.exp_av_nn_step
  dsimp only
  split
  · cases ndir <;> simp only [Except.map, col_addRow] <;> rfl
  · split
    · cases ndir <;> simp only [Except.map, col_addRow] <;> rfl
    · rfl

theorem folds_map {σ τ : Type} (f : σ → τ) {op : σ → σ → σ} {op' : τ → τ → τ} {zero : σ}
    (hop : ∀ a b, f (op a b) = op' (f a) (f b)) {l : List σ} {v : σ}
    (h : Spark.Folds op zero l v) : Spark.Folds op' (f zero) (l.map f) (f v) := by
  induction h with
  | nil => exact .nil
  | single x => exact .single _
  | node _ _ iha ihb => rw [List.map_append, hop]; exact .node iha ihb
  | perm hp _ ih => exact .perm (hp.map f) ih

theorem avTasks_col (E : Ens) (N p : ℕ) (prop : ℕ → ℕ → XR) (ndir : Dir) (s : Bool) (c : ℕ) :
    (avTasks E N p prop ndir s).map (Except.map (col c))
      = Spark.avTasks E N p (col c prop) ndir s := by
  unfold avTasks Spark.avTasks
  rw [List.map_map]
  refine List.map_congr_left fun x _ => ?_
  exact exp_av_nn_block_col _ _ _ _ _ _ _ _ _ _ _

theorem addArrays_col (c : ℕ) (a b : Except NNErr (ℕ → ℕ → XR)) :
    (addArrays a b).map (col c) = Spark.addArrays (a.map (col c)) (b.map (col c)) := by
  cases a <;> cases b <;> rfl

/-- However the partial results are combined, the job gives the result of the sequential loop. -/
theorem av_job {E : Ens} (hE : E.Coherent) (hd : Spark.DyadFree E) {N p : ℕ} (hp : 0 < p)
    (x : ℕ → ℕ → XR) (ndir : Dir) (hdir : ndir.Known) (s : Bool) (jUndef : ℕ)
    {v : Except NNErr (ℕ → ℕ → XR)}
    (h : Spark.Folds addArrays (.ok (fun _ _ => 0)) (avTasks E N p x ndir s) v) :
    v = exp_av_nn_prop jUndef E.p_ij E.param N E.prop_out E.prop_in E.prop_dyad x ndir s := by
  have key : ∀ c, v.map (col c) = (exp_av_nn_prop jUndef E.p_ij E.param N E.prop_out E.prop_in
      E.prop_dyad x ndir s).map (col c) := by
    intro c
    rw [exp_av_nn_prop_col]
    have := folds_map (Except.map (col c)) (op' := Spark.addArrays) (addArrays_col c) h
    rw [avTasks_col] at this
    exact Spark.Query.av_job hE hd hp _ ndir hdir s jUndef this
  have hseq : ∃ a, exp_av_nn_prop jUndef E.p_ij E.param N E.prop_out E.prop_in E.prop_dyad
      x ndir s = .ok a := by
    have := exp_av_nn_prop_col jUndef E.p_ij E.param N E.prop_out E.prop_in E.prop_dyad x ndir s 0
    rw [Spark.Query.av_seq hE hd jUndef N _ ndir hdir s] at this
    cases hx : exp_av_nn_prop jUndef E.p_ij E.param N E.prop_out E.prop_in E.prop_dyad x ndir s with
    | ok a => exact ⟨a, rfl⟩
    | error e => rw [hx] at this; exact absurd this (by simp [Except.map])
  obtain ⟨a, ha⟩ := hseq
  rw [ha] at key ⊢
  exact ok_of_cols key

/-! ## Graphs -/

theorem nnSum_col (b : Graph.Backend) (n : ℕ) (a : Graph.Dense.NArr) (prop : ℕ → ℕ → ℝ)
    (sl : Bool) (i c : ℕ) : nnSum b n a prop sl i c = Graph.nnSum b n a (fun j => prop j c) sl i := by
  cases b with
  | dense => rfl
  | sparse =>
    unfold nnSum Graph.nnSum Graph.Sparse.av_nn_prop
    dsimp only
    have key : ∀ (l : List (ℕ × Bool)) (r : ℕ → ℝ),
        l.foldl (fun res j => if (decide (i ≠ j.1) || sl) = true then (fun c => res c + prop j.1 c)
          else res) r c
        = l.foldl (fun res j => if (decide (i ≠ j.1) || sl) = true then res + prop j.1 c
          else res) (r c) := by
      intro l
      induction l with
      | nil => intro r; rfl
      | cons j l ih =>
        intro r
        rw [List.foldl_cons, List.foldl_cons, ih]
        by_cases h : (decide (i ≠ j.1) || sl) = true
        · rw [if_pos h, if_pos h]
        · rw [if_neg h, if_neg h]
    exact key _ _

end Columns

end

end Verif
