import Verif.Spark.Query
import Verif.Spark.Props
import Verif.Ensemble.QueryProps

/-! # The query jobs compute what the sequential loops compute -/

namespace Verif

noncomputable section

open XR DiGraphEnsemble

namespace Spark.Query

open _root_.Verif.Query (St Err Op Ret M at_ getOut getIn restore setSelfloops average setAv getAv
  degree_param bind_param degreeByDir_param restore_param getAv_param av_param)

/-! ## Neighbour sums of any property -/

/-- Contribution of the unordered pair to the neighbour sums, for properties that need not be
finite. -/
def avTermX (E : Ens) (x : ℕ → XR) (s : Bool) (d : Dir) (i j : ℕ) : ℕ → XR :=
  if i ≠ j then
    match d with
    | .out => Pi.single i (E.p i j * x j) + Pi.single j (E.p j i * x i)
    | .inn => Pi.single i (E.p j i * x j) + Pi.single j (E.p i j * x i)
    | .outIn => Pi.single i ((E.p i j + E.p j i - E.p i j * E.p j i) * x j)
        + Pi.single j ((E.p i j + E.p j i - E.p i j * E.p j i) * x i)
    | .underscored | .other => 0
  else if s then Pi.single i (E.p i i * x i) else 0

theorem av_seq {E : Ens} (hE : E.Coherent) (hd : DyadFree E) (jUndef n : ℕ) (x : ℕ → XR)
    (ndir : Dir) (hdir : ndir.Known) (s : Bool) :
    DiGraphEnsemble.exp_av_nn_prop jUndef E.p_ij E.param n E.prop_out E.prop_in E.prop_dyad x ndir s
      = .ok (∑ i ∈ Finset.range n, ∑ j ∈ Finset.range (i + 1), avTermX E x s ndir i j) := by
  let R : (ℕ → XR) → ℕ → XR := fun a => a
  have hpairs : (List.range n).foldlM (fun av_nn i =>
      (List.range i).foldlM
        (DiGraphEnsemble.exp_av_nn_step E.p_ij E.param E.prop_out E.prop_in E.prop_dyad x ndir i)
        av_nn) zeros
      = .ok (R (0 + ∑ i ∈ Finset.range n, ∑ j ∈ Finset.range i, avTermX E x s ndir i j)) := by
    have h0 : (zeros : ℕ → XR) = R 0 := rfl
    rw [h0]
    refine foldlM_rep R _ _ n (fun i _ a => ?_) 0
    refine foldlM_rep R _ _ i (fun j hj a => ?_) a
    have hij : i ≠ j := by omega
    unfold DiGraphEnsemble.exp_av_nn_step avTermX
    simp only [(hd _ _ _ _).1, if_pos hij]
    cases ndir with
    | underscored | other => exact False.elim hdir
    | out => simp only [R, addAt_eq, add_assoc]
    | inn => simp only [R, addAt_eq, add_assoc]
    | outIn =>
      have e : ((1 : XR) - (1 - E.p i j) * (1 - E.p j i))
          = E.p i j + E.p j i - E.p i j * E.p j i := by
        rw [hE.p_eq i j, hE.p_eq j i, one_def, fin_sub_fin, fin_sub_fin, fin_mul_fin, fin_sub_fin,
          fin_add_fin, fin_mul_fin, fin_sub_fin]
        congr 1; ring
      simp only [e, R, addAt_eq, add_assoc]
  have hsplit : ∑ i ∈ Finset.range n, ∑ j ∈ Finset.range (i + 1), avTermX E x s ndir i j
      = (∑ i ∈ Finset.range n, ∑ j ∈ Finset.range i, avTermX E x s ndir i j)
        + ∑ i ∈ Finset.range n, avTermX E x s ndir i i := by
    rw [← Finset.sum_add_distrib]
    exact Finset.sum_congr rfl (fun i _ => Finset.sum_range_succ _ _)
  unfold DiGraphEnsemble.exp_av_nn_prop
  dsimp only
  rw [hpairs, hsplit]
  show (if s = true then _ else _) = _
  rw [zero_add]
  by_cases hs : s = true
  · rw [if_pos hs]
    refine foldlM_rep R _ (fun i => avTermX E x s ndir i i) n (fun i _ a => ?_) _
    unfold DiGraphEnsemble.exp_av_nn_self avTermX
    simp only [(hd _ _ _ _).1, hs, ne_eq, not_true_eq_false, if_false, if_true]
    cases ndir with
    | underscored | other => exact False.elim hdir
    | out => simp only [R, addAt_eq]
    | inn => simp only [R, addAt_eq]
    | outIn => simp only [R, addAt_eq]
  · rw [if_neg hs, Finset.sum_eq_zero (s := Finset.range n) (f := fun i => avTermX E x s ndir i i)
      (fun i _ => by simp [avTermX, hs]), add_zero]

theorem av_block {E : Ens} (hd : DyadFree E) (b : (ℕ × ℕ) × (ℕ × ℕ))
    (x : ℕ → XR) (ndir : Dir) (hdir : ndir.Known) (s : Bool) :
    Spark.exp_av_nn_prop E.p_ij E.param b.1 b.2 (slice E.prop_out b.1, slice E.prop_out b.2)
        (slice E.prop_in b.2, slice E.prop_in b.1) E.prop_dyad x ndir s
      = .ok (∑ i ∈ Finset.range (b.1.2 - b.1.1),
          ∑ j ∈ Finset.range (inRange i b.2 (decide (b.1 = b.2))),
            avTermX E x s ndir (b.1.1 + i) (b.2.1 + j)) := by
  let R : (ℕ → XR) → ℕ → XR := fun a => a
  have h0 : (zeros : ℕ → XR) = R 0 := rfl
  unfold Spark.exp_av_nn_prop
  dsimp only
  rw [h0, foldlM_rep R _ (fun i => ∑ j ∈ Finset.range (inRange i b.2 (decide (b.1 = b.2))),
    avTermX E x s ndir (b.1.1 + i) (b.2.1 + j)) _ ?_ 0, zero_add]
  intro i _ a
  refine foldlM_rep R _ _ _ (fun j _ a => ?_) a
  unfold Spark.exp_av_nn_step avTermX
  simp only [slice, (hd _ _ _ _).1]
  by_cases h : b.1.1 + i ≠ b.2.1 + j
  · rw [if_pos h, if_pos h]
    cases ndir with
    | underscored | other => exact False.elim hdir
    | out => simp only [R, addAt_eq, add_assoc]
    | inn => simp only [R, addAt_eq, add_assoc]
    | outIn => simp only [R, addAt_eq, add_assoc]
  · have h' : b.2.1 + j = b.1.1 + i := (not_not.1 h).symm
    rw [if_neg h, if_neg h, h']
    by_cases hs : s = true
    · rw [if_pos hs, if_pos hs]
      cases ndir with
      | underscored | other => exact False.elim hdir
      | out => simp only [R, addAt_eq]
      | inn => simp only [R, addAt_eq]
      | outIn => simp only [R, addAt_eq]
    · rw [if_neg hs, if_neg hs, add_zero]

/-- The job of `expected_av_nn_property`, for every property. -/
theorem av_job {E : Ens} (hE : E.Coherent) (hd : DyadFree E) {N p : ℕ} (hp : 0 < p) (x : ℕ → XR)
    (ndir : Dir) (hdir : ndir.Known) (s : Bool) (jUndef : ℕ) {v : Except NNErr (ℕ → XR)}
    (h : Folds addArrays (.ok zeros) (avTasks E N p x ndir s) v) :
    v = DiGraphEnsemble.exp_av_nn_prop jUndef E.p_ij E.param N E.prop_out E.prop_in E.prop_dyad
      x ndir s := by
  rw [av_seq hE hd jUndef N x ndir hdir s]
  exact folds_sym (fun a : ℕ → XR => (Except.ok a : Except NNErr (ℕ → XR))) rfl
    (fun _ _ => rfl) hp (avTermX E x s ndir) h (fun b => av_block hd b x ndir hdir s)

/-! ## Methods with one outcome -/

/-- The only outcome of the method in state `s` is the outcome of `m'`. -/
def Det {δ α : Type} (m : R δ α) (m' : M δ α) (s : St δ) : Prop :=
  ∀ r s', m s r s' ↔ m' s = (r, s')

theorem det_ofM {δ α : Type} (m : M δ α) (s : St δ) : Det (ofM m) m s := fun _ _ => Iff.rfl

theorem det_bind {δ α β : Type} {m : R δ α} {m' : M δ α} {f : α → R δ β} {f' : α → M δ β}
    {s : St δ} (h : Det m m' s) (hf : ∀ a s', m' s = (.ok a, s') → Det (f a) (f' a) s') :
    Det (m.bind f) (m'.bind f') s := by
  intro r s'
  unfold R.bind M.bind
  cases hm : m' s with
  | mk x t =>
    cases x with
    | error e =>
      dsimp only
      constructor
      · rintro (⟨e', h1, rfl⟩ | ⟨a, s1, h1, _⟩)
        · rw [h, hm] at h1
          obtain ⟨h2, rfl⟩ := Prod.mk.inj h1
          rw [Except.error.inj h2]
        · rw [h, hm] at h1
          exact absurd (Prod.mk.inj h1).1 (by simp)
      · intro h1
        obtain ⟨rfl, rfl⟩ := Prod.mk.inj h1
        exact Or.inl ⟨e, (h _ _).2 hm, rfl⟩
    | ok a =>
      dsimp only
      constructor
      · rintro (⟨e', h1, rfl⟩ | ⟨a', s1, h1, h2⟩)
        · rw [h, hm] at h1
          exact absurd (Prod.mk.inj h1).1 (by simp)
        · rw [h, hm] at h1
          obtain ⟨h3, rfl⟩ := Prod.mk.inj h1
          rw [← Except.ok.inj h3] at h2
          exact (hf a t hm _ _).1 h2
      · intro h1
        exact Or.inr ⟨a, t, (h _ _).2 hm, (hf a t hm _ _).2 h1⟩

theorem exists_unique_job {σ : Type} {op : σ → σ → σ} {zero : σ} {l : List σ} {w : σ}
    (h : ∀ v, Folds op zero l v → v = w) (P : σ → Prop) :
    (∃ v, Folds op zero l v ∧ P v) ↔ P w := by
  constructor
  · rintro ⟨v, hv, hP⟩
    rw [← h v hv]; exact hP
  · intro hP
    refine ⟨_, folds_fold op zero l, ?_⟩
    rw [h _ (folds_fold op zero l)]; exact hP

/-- The parameter, if any, is one for which the ensemble is a model of the backend. -/
def Good {E : Ens} (s : St E.δ) : Prop := ∀ θ, s.param = some θ → IsSpark (at_ E θ)

variable {E : Ens} {n p : ℕ}

/-- The recompute flag as the class understands it. -/
def Cls.flag : Cls → Bool → Bool
  | .single, r => r
  | .multi, _ => true

theorem det_num_edges (c : Cls) (hp : 0 < p) (rec : Bool) {s : St E.δ} (hs : Good s) :
    Det (ExpectedNumEdges c E n p rec) (_root_.Verif.Query.expected_num_edges E n (c.flag rec)) s := by
  intro r s'
  unfold ExpectedNumEdges _root_.Verif.Query.expected_num_edges
  cases hθ : s.param with
  | none =>
    dsimp only
    rw [Prod.mk.injEq, eq_comm (a := r), eq_comm (a := s')]
  | some θ =>
    dsimp only
    have key : ∀ P, _ := exists_unique_job (fun v hv => C43_expected_num_edges (hs θ hθ).dyadFree hp
      s.selfloops (N := n) hv)
    have hflag : c.compute s.exp_num_edges.isSome rec = (s.exp_num_edges.isNone || c.flag rec) := by
      cases c <;> cases s.exp_num_edges <;> simp [Cls.flag, Cls.compute]
    rw [hflag]
    by_cases hc : (s.exp_num_edges.isNone || c.flag rec) = true
    · rw [if_pos hc, if_pos hc, key]
      dsimp only
      rw [Prod.mk.injEq, eq_comm (a := r), eq_comm (a := s'), and_comm]
    · rw [if_neg hc, if_neg hc]
      cases hv : s.exp_num_edges with
      | none => rw [hv] at hc; simp at hc
      | some v =>
        dsimp only
        rw [Prod.mk.injEq, eq_comm (a := r), eq_comm (a := s'), and_comm]

theorem det_degree (hp : 0 < p) (rec : Bool) {s : St E.δ} (hs : Good s) :
    Det (ExpectedDegree E n p rec) (_root_.Verif.Query.expected_degree E n rec) s := by
  intro r s'
  unfold ExpectedDegree _root_.Verif.Query.expected_degree
  cases hθ : s.param with
  | none =>
    dsimp only
    rw [Prod.mk.injEq, eq_comm (a := r), eq_comm (a := s')]
  | some θ =>
    dsimp only
    have key : ∀ P, _ := exists_unique_job (fun v hv => C43_expected_degrees (hs θ hθ).dyadFree hp
      s.selfloops (N := n) hv)
    by_cases hc : (s.exp_degree.isNone || rec) = true
    · rw [if_pos hc, if_pos hc, key]
      dsimp only
      rw [Prod.mk.injEq, eq_comm (a := r), eq_comm (a := s'), and_comm]
    · rw [if_neg hc, if_neg hc]
      cases hv : s.exp_degree with
      | none => rw [hv] at hc; simp at hc
      | some v =>
        dsimp only
        rw [Prod.mk.injEq, eq_comm (a := r), eq_comm (a := s'), and_comm]

theorem det_out_degree (hp : 0 < p) (rec : Bool) {s : St E.δ} (hs : Good s) :
    Det (ExpectedOutDegree E n p rec) (_root_.Verif.Query.expected_out_degree E n rec) s := by
  unfold Det ExpectedOutDegree _root_.Verif.Query.expected_out_degree
  by_cases hc : (s.exp_out_degree.isNone || rec) = true
  · rw [if_pos hc, if_pos hc]
    exact det_bind (det_degree hp rec hs) (fun _ _ _ => det_ofM _ _)
  · rw [if_neg hc, if_neg hc]
    exact det_ofM _ _

theorem det_in_degree (hp : 0 < p) (rec : Bool) {s : St E.δ} (hs : Good s) :
    Det (ExpectedInDegree E n p rec) (_root_.Verif.Query.expected_in_degree E n rec) s := by
  unfold Det ExpectedInDegree _root_.Verif.Query.expected_in_degree
  by_cases hc : (s.exp_in_degree.isNone || rec) = true
  · rw [if_pos hc, if_pos hc]
    exact det_bind (det_degree hp rec hs) (fun _ _ _ => det_ofM _ _)
  · rw [if_neg hc, if_neg hc]
    exact det_ofM _ _

theorem det_degreeByDir (hp : 0 < p) (bad : Err) (dir : Dir) (rec : Bool) {s : St E.δ}
    (hs : Good s) :
    Det (DegreeByDir E n p bad dir rec) (_root_.Verif.Query.degreeByDir E n bad dir rec) s := by
  cases dir with
  | out => exact det_out_degree hp rec hs
  | inn => exact det_in_degree hp rec hs
  | outIn => exact det_degree hp rec hs
  | underscored | other =>
    intro r s'
    unfold DegreeByDir _root_.Verif.Query.degreeByDir
    dsimp only
    rw [Prod.mk.injEq, eq_comm (a := r), eq_comm (a := s')]

/-! ## Queries keep the parameter -/

theorem call_param (jUndef : ℕ) (op : Op E.δ) (s : St E.δ) :
    (_root_.Verif.Query.call jUndef E n op s).2.param = s.param ∨
      ∃ θ, op = .fit θ ∧ (_root_.Verif.Query.call jUndef E n op s).2.param = some θ := by
  have hmap : ∀ {α β : Type} (f : α → β) (m : M E.δ α), (m s).2.param = s.param →
      (M.map f m s).2.param = s.param := by
    intro α β f m h
    rw [_root_.Verif.Query.map_state]; exact h
  cases op with
  | fit θ => exact Or.inr ⟨θ, rfl, rfl⟩
  | numEdges r =>
    refine Or.inl (hmap _ _ ?_)
    unfold _root_.Verif.Query.expected_num_edges
    cases hθ : s.param with
    | none => exact hθ
    | some θ =>
      dsimp only
      by_cases hc : (s.exp_num_edges.isNone || r) = true
      · rw [if_pos hc]
      · rw [if_neg hc]
        cases s.exp_num_edges <;> exact hθ
  | degree r => exact Or.inl (hmap _ _ (degreeByDir_param .badDdir .outIn r s))
  | outDegree r => exact Or.inl (hmap _ _ (degreeByDir_param .badDdir .out r s))
  | inDegree r => exact Or.inl (hmap _ _ (degreeByDir_param .badDdir .inn r s))
  | avNnProp len prop ndir sl dr => exact Or.inl (hmap _ _ (av_param jUndef len prop ndir sl dr s))
  | avNnDegree ddir ndir sl dr r =>
    refine Or.inl (hmap _ _ ?_)
    unfold _root_.Verif.Query.expected_av_nn_degree
    cases hθ : s.param with
    | none => exact hθ
    | some θ =>
      dsimp only
      split
      · refine (bind_param (degreeByDir_param _ _ _ _) (fun a t _ => ?_)).trans hθ
        refine bind_param (av_param jUndef n a ndir _ false t) (fun v u _ => ?_)
        refine (getAv_param _ _ _).trans ((restore_param _ _).trans ?_)
        rfl
      · exact (getAv_param _ _ _).trans hθ

/-! ## Nearest neighbours -/

theorem det_av (jUndef : ℕ) (hp : 0 < p) (len : ℕ) (prop : ℕ → XR) (ndir : Dir)
    (sl : Option Bool) (dr : Bool) {s : St E.δ} (hs : Good s) :
    Det (ExpectedAvNnProperty E n p len prop ndir sl dr)
      (_root_.Verif.Query.expected_av_nn_property jUndef E n len prop ndir sl dr) s := by
  unfold Det ExpectedAvNnProperty _root_.Verif.Query.expected_av_nn_property
  cases hθ : s.param with
  | none =>
    intro r s'
    dsimp only
    rw [Prod.mk.injEq, eq_comm (a := r), eq_comm (a := s')]
  | some θ =>
    dsimp only
    by_cases hl : len ≠ n
    · intro r s'
      rw [if_pos hl, if_pos hl, Prod.mk.injEq, eq_comm (a := r), eq_comm (a := s')]
    · rw [if_neg hl, if_neg hl]
      have hs' : Good (setSelfloops (sl.getD s.selfloops) s) := fun t ht => hs t ht
      refine det_bind (det_degreeByDir hp _ _ _ hs') (fun deg t ht r s' => ?_)
      have hdir : ndir.Known := by
        cases ndir with
        | out | inn | outIn => simp
        | underscored | other =>
          exact absurd (congrArg Prod.fst ht) (by simp [_root_.Verif.Query.degreeByDir])
      have hself : t.selfloops = sl.getD s.selfloops := by
        have h := _root_.Verif.Query.degreeByDir_self E n .badNdir ndir
          (dr || (sl.getD s.selfloops != s.selfloops)) (setSelfloops (sl.getD s.selfloops) s)
        rw [ht] at h
        exact h
      have key : ∀ P, _ := exists_unique_job (fun v hv => av_job (hs θ hθ).coherent
        (hs θ hθ).dyadFree hp prop ndir hdir (sl.getD s.selfloops) jUndef (N := n) hv)
      rw [key, hself]
      show (match DiGraphEnsemble.exp_av_nn_prop jUndef E.p_ij θ n E.prop_out E.prop_in E.prop_dyad
        prop ndir (sl.getD s.selfloops) with
        | .error _ => _
        | .ok av_nn => _) ↔ _
      cases DiGraphEnsemble.exp_av_nn_prop jUndef E.p_ij θ n E.prop_out E.prop_in E.prop_dyad
        prop ndir (sl.getD s.selfloops) with
      | error e =>
        dsimp only
        rw [Prod.mk.injEq, eq_comm (a := r), eq_comm (a := s')]
      | ok av =>
        dsimp only
        split
        · rw [Prod.mk.injEq, eq_comm (a := r), eq_comm (a := s')]
        · rw [Prod.mk.injEq, eq_comm (a := r), eq_comm (a := s')]

theorem det_av_degree (jUndef : ℕ) (hp : 0 < p) (ddir ndir : Dir) (sl : Option Bool)
    (dr rec : Bool) {s : St E.δ} (hs : Good s) :
    Det (ExpectedAvNnDegree E n p ddir ndir sl dr rec)
      (_root_.Verif.Query.expected_av_nn_degree jUndef E n ddir ndir sl dr rec) s := by
  unfold Det ExpectedAvNnDegree _root_.Verif.Query.expected_av_nn_degree
  cases hθ : s.param with
  | none =>
    intro r s'
    dsimp only
    rw [Prod.mk.injEq, eq_comm (a := r), eq_comm (a := s')]
  | some θ =>
    dsimp only
    by_cases hc : ((s.exp_av ndir.key ddir.key).isNone || rec || dr) = true
    · rw [if_pos hc, if_pos hc]
      have hs' : Good (setSelfloops (sl.getD s.selfloops) s) := fun t ht => hs t ht
      refine det_bind (det_degreeByDir hp _ _ _ hs') (fun deg t ht => ?_)
      have hpar := degreeByDir_param (n := n) .badDdir ddir
        (dr || (sl.getD s.selfloops != s.selfloops)) (setSelfloops (sl.getD s.selfloops) s)
      rw [ht] at hpar
      have hs'' : Good t := fun u hu => hs' u (hpar ▸ hu)
      exact det_bind (det_av jUndef hp n deg ndir _ false hs'') (fun _ _ _ => det_ofM _ _)
    · rw [if_neg hc, if_neg hc]
      exact det_ofM _ _

/-- The call of the sequential class that a call of the Spark class amounts to. -/
def plainOp {δ : Type} (c : Cls) : Op δ → Op δ
  | .numEdges r => .numEdges (c.flag r)
  | op => op

theorem det_call (c : Cls) (jUndef : ℕ) (hp : 0 < p) (op : Op E.δ) {s : St E.δ} (hs : Good s) :
    Det (Call c E n p op) (_root_.Verif.Query.call jUndef E n (plainOp c op)) s := by
  have hmap : ∀ {α β : Type} (f : α → β) {m : R E.δ α} {m' : M E.δ α}, Det m m' s →
      Det (R.map f m) (M.map f m') s := fun f m m' h => det_bind h (fun _ _ _ => det_ofM _ _)
  cases op with
  | fit θ => exact det_ofM _ _
  | numEdges r => exact hmap _ (det_num_edges c hp r hs)
  | degree r => exact hmap _ (det_degree hp r hs)
  | outDegree r => exact hmap _ (det_out_degree hp r hs)
  | inDegree r => exact hmap _ (det_in_degree hp r hs)
  | avNnProp len prop ndir sl dr => exact hmap _ (det_av jUndef hp len prop ndir sl dr hs)
  | avNnDegree ddir ndir sl dr r => exact hmap _ (det_av_degree jUndef hp ddir ndir sl dr r hs)

end Spark.Query

end

end Verif
