import Verif.Relabel.Model
import Verif.Relabel.Lemmas
import Verif.Ensemble.SampleProps
import Verif.Ensemble.QueryProps
import Verif.Ensemble.MethodProps

/-!
# C90: the numbering of the vertices does not matter

`Relabel.ens σ E` is the ensemble built from the properties of `E` listed in another order, vertex
`i` of the new list being vertex `σ i` of the old one.
-/

namespace Verif

open XR DiGraphEnsemble

namespace Relabel

attribute [local instance] addMonoid

variable {σ : Equiv.Perm ℕ} {n : ℕ}

theorem sum_renum {A : Type} [AddCommMonoid A] (hσ : Renum n σ) {f g : ℕ → A}
    (h : ∀ i < n, g i = f (σ i)) : ∑ i ∈ Finset.range n, g i = ∑ i ∈ Finset.range n, f i :=
  Finset.sum_equiv σ (fun i => by simp [hσ i]) (fun i hi => h i (Finset.mem_range.1 hi))

theorem on_renum (σ : Equiv.Perm ℕ) (b : Bool) (q : ℕ → ℕ → XR) (i j : ℕ) :
    on b (fun i j => q (σ i) (σ j)) i j = on b q (σ i) (σ j) := by
  simp [on, admissible]

theorem both_renum (σ : Equiv.Perm ℕ) (b : Bool) (q : ℕ → ℕ → XR) (i j : ℕ) :
    both b (fun i j => q (σ i) (σ j)) i j = both b q (σ i) (σ j) := by
  simp [both]

/-! ## Expectations -/

/-- The expected number of edges is the same. -/
theorem C90_expected_edges (hσ : Renum n σ) (E : Ens) (b : Bool) :
    (ens σ E).exp_edges n b = E.exp_edges n b := by
  unfold Ens.exp_edges
  rw [exp_edges_sum, exp_edges_sum]
  exact sum_renum hσ (fun i _ => sum_renum hσ (fun j _ => on_renum σ b
    (fun i j => E.p_ij E.param (E.prop_out i) (E.prop_in j) (E.prop_dyad i j)) i j))

/-- The expected degrees of a vertex are the same. -/
theorem C90_expected_degrees (hσ : Renum n σ) (E : Ens) (b : Bool) (i : ℕ) (hi : i < n) :
    ((ens σ E).exp_degrees n b).exp_d i = (E.exp_degrees n b).exp_d (σ i) ∧
    ((ens σ E).exp_degrees n b).exp_d_out i = (E.exp_degrees n b).exp_d_out (σ i) ∧
    ((ens σ E).exp_degrees n b).exp_d_in i = (E.exp_degrees n b).exp_d_in (σ i) := by
  unfold Ens.exp_degrees
  have h1 := exp_degrees_at' (p_ij := (ens σ E).p_ij) (param := (ens σ E).param)
    (prop_out := (ens σ E).prop_out) (prop_in := (ens σ E).prop_in)
    (prop_dyad := (ens σ E).prop_dyad) b i hi
  have h2 := exp_degrees_at' (p_ij := E.p_ij) (param := E.param)
    (prop_out := E.prop_out) (prop_in := E.prop_in) (prop_dyad := E.prop_dyad) b (σ i)
    ((hσ i).2 hi)
  dsimp only at h1 h2
  rw [h1.1, h1.2.1, h1.2.2, h2.1, h2.2.1, h2.2.2]
  let q := fun i j => E.p_ij E.param (E.prop_out i) (E.prop_in j) (E.prop_dyad i j)
  exact ⟨sum_renum hσ (fun j _ => both_renum σ b q i j),
    sum_renum hσ (fun j _ => on_renum σ b q i j), sum_renum hσ (fun j _ => on_renum σ b q j i)⟩

/-- The neighbour sums of a vertex are the same. -/
theorem av_nn_renum (hσ : Renum n σ) (E : Ens) (hd : Query.DyadConst E) (jUndef : ℕ)
    (x x' : ℕ → XR) (hx : ∀ i < n, x' i = x (σ i)) (ndir : Dir) (hdir : ndir.Known) (b : Bool) :
    ∃ v v', exp_av_nn_prop jUndef E.p_ij E.param n E.prop_out E.prop_in E.prop_dyad x ndir b
        = .ok v ∧
      exp_av_nn_prop jUndef E.p_ij E.param n (ens σ E).prop_out (ens σ E).prop_in
        (ens σ E).prop_dyad x' ndir b = .ok v' ∧ ∀ i < n, v' i = v (σ i) := by
  refine ⟨_, _, exp_av_nn_sum jUndef x ndir hdir b, exp_av_nn_sum jUndef x' ndir hdir b,
    fun i hi => ?_⟩
  rw [sum_row _ i hi, sum_row _ (σ i) ((hσ i).2 hi)]
  refine sum_renum hσ (fun j hj => ?_)
  unfold nnTerm
  by_cases hij : i = j
  · subst hij
    simp only [ne_eq, not_true_eq_false, if_false]
    by_cases hb : b = true
    · rw [if_pos hb, if_pos hb, hx i hi]
      show E.p_ij E.param (E.prop_out (σ i)) (E.prop_in (σ i)) (E.prop_dyad (σ i) _) * _
        = E.p_ij E.param (E.prop_out (σ i)) (E.prop_in (σ i)) (E.prop_dyad (σ i) _) * _
      rw [hd (σ i) _ (σ i) (if 2 ≤ n then n - 2 else jUndef)]
    · rw [if_neg hb, if_neg hb]
  · rw [if_pos hij, if_pos (fun h => hij (σ.injective h)), hx j hj]
    congr 1
    cases ndir <;> rfl

/-! ## Histories of calls -/

open Query

/-- Related attributes. -/
inductive OptSame (σ : Equiv.Perm ℕ) (n : ℕ) : Option (ℕ → XR) → Option (ℕ → XR) → Prop
  | none : OptSame σ n none none
  | some {v v' : ℕ → XR} (h : ∀ i < n, v' i = v (σ i)) : OptSame σ n (some v) (some v')

/-- Related states. -/
structure Sim (σ : Equiv.Perm ℕ) (n : ℕ) {δ : Type} (s s' : St δ) : Prop where
  param : s'.param = s.param
  selfloops : s'.selfloops = s.selfloops
  edges : s'.exp_num_edges = s.exp_num_edges
  deg : OptSame σ n s.exp_degree s'.exp_degree
  out : OptSame σ n s.exp_out_degree s'.exp_out_degree
  inn : OptSame σ n s.exp_in_degree s'.exp_in_degree
  av : ∀ a c, OptSame σ n (s.exp_av a c) (s'.exp_av a c)

/-- Related results. -/
inductive Res {α : Type} (R : α → α → Prop) : Except Err α → Except Err α → Prop
  | error (e : Err) : Res R (.error e) (.error e)
  | ok {a a' : α} (h : R a a') : Res R (.ok a) (.ok a')

/-- Related methods. -/
def MRel (σ : Equiv.Perm ℕ) (n : ℕ) {δ α : Type} (R : α → α → Prop) (m m' : M δ α) : Prop :=
  ∀ s s', Sim σ n s s' → Res R (m s).1 (m' s').1 ∧ Sim σ n (m s).2 (m' s').2

/-- Related arrays. -/
def Arr (σ : Equiv.Perm ℕ) (n : ℕ) (v v' : ℕ → XR) : Prop := ∀ i < n, v' i = v (σ i)

theorem MRel.bind {δ α β : Type} {R : α → α → Prop} {S : β → β → Prop} {m m' : M δ α}
    {f f' : α → M δ β} (hm : MRel σ n R m m') (hf : ∀ a a', R a a' → MRel σ n S (f a) (f' a')) :
    MRel σ n S (m.bind f) (m'.bind f') := by
  intro s s' h
  obtain ⟨h1, h2⟩ := hm s s' h
  unfold M.bind
  generalize m s = r at h1 h2
  generalize m' s' = r' at h1 h2
  obtain ⟨a, t⟩ := r
  obtain ⟨a', t'⟩ := r'
  cases h1 with
  | error e => exact ⟨.error e, h2⟩
  | ok h => exact hf _ _ h t t' h2

theorem MRel.error {δ α : Type} {R : α → α → Prop} (e : Err) :
    MRel (δ := δ) σ n R (fun s => (.error e, s)) (fun s => (.error e, s)) :=
  fun _ _ h => ⟨.error e, h⟩

/-- `return self.name` -/
def attr {δ : Type} (o : Option (ℕ → XR)) (s : St δ) : Except Err (ℕ → XR) × St δ :=
  match o with
  | some v => (.ok v, s)
  | none => (.error .attribute, s)

theorem get_res {δ : Type} {o o' : Option (ℕ → XR)} {s s' : St δ} (ho : OptSame σ n o o')
    (h : Sim σ n s s') :
    Res (Arr σ n) (attr o s).1 (attr o' s').1 ∧ Sim σ n (attr o s).2 (attr o' s').2 := by
  cases ho with
  | none => exact ⟨.error _, h⟩
  | some hv => exact ⟨.ok hv, h⟩

theorem OptSame.isNone {o o' : Option (ℕ → XR)} (h : OptSame σ n o o') : o'.isNone = o.isNone := by
  cases h <;> rfl

theorem num_edges_rel (hσ : Renum n σ) (E : Ens) (r : Bool) :
    MRel σ n Eq (expected_num_edges E n r) (expected_num_edges (ens σ E) n r) := by
  intro s s' h
  unfold expected_num_edges
  rw [h.param]
  cases s.param with
  | none => exact ⟨.error _, h⟩
  | some θ =>
    dsimp only
    rw [h.edges, h.selfloops]
    have he : (at_ (ens σ E) θ).exp_edges n s.selfloops = (at_ E θ).exp_edges n s.selfloops :=
      C90_expected_edges hσ (at_ E θ) s.selfloops
    rw [he]
    by_cases hc : (s.exp_num_edges.isNone || r) = true
    · rw [if_pos hc, if_pos hc]
      exact ⟨.ok rfl, ⟨rfl, rfl, rfl, h.deg, h.out, h.inn, h.av⟩⟩
    · rw [if_neg hc, if_neg hc, h.edges]
      cases s.exp_num_edges with
      | none => exact ⟨.error _, h⟩
      | some v => exact ⟨.ok rfl, h⟩

theorem degree_rel (hσ : Renum n σ) (E : Ens) (r : Bool) :
    MRel σ n (Arr σ n) (expected_degree E n r) (expected_degree (ens σ E) n r) := by
  intro s s' h
  unfold expected_degree
  rw [h.param]
  cases s.param with
  | none => exact ⟨.error _, h⟩
  | some θ =>
    dsimp only
    rw [h.deg.isNone, h.selfloops]
    have hd := C90_expected_degrees hσ (at_ E θ) s.selfloops
    by_cases hc : (s.exp_degree.isNone || r) = true
    · rw [if_pos hc, if_pos hc]
      exact ⟨.ok (fun i hi => (hd i hi).1), ⟨rfl, rfl, h.edges,
        .some (fun i hi => (hd i hi).1), .some (fun i hi => (hd i hi).2.1),
        .some (fun i hi => (hd i hi).2.2), h.av⟩⟩
    · rw [if_neg hc, if_neg hc]
      exact get_res h.deg h

theorem getOut_rel {δ : Type} : MRel (δ := δ) σ n (Arr σ n) getOut getOut :=
  fun _ _ h => get_res h.out h

theorem getIn_rel {δ : Type} : MRel (δ := δ) σ n (Arr σ n) getIn getIn :=
  fun _ _ h => get_res h.inn h

theorem out_degree_rel (hσ : Renum n σ) (E : Ens) (r : Bool) :
    MRel σ n (Arr σ n) (expected_out_degree E n r) (expected_out_degree (ens σ E) n r) := by
  intro s s' h
  unfold expected_out_degree
  rw [h.out.isNone]
  split
  · exact (degree_rel hσ E r).bind (fun _ _ _ => getOut_rel) s s' h
  · exact getOut_rel s s' h

theorem in_degree_rel (hσ : Renum n σ) (E : Ens) (r : Bool) :
    MRel σ n (Arr σ n) (expected_in_degree E n r) (expected_in_degree (ens σ E) n r) := by
  intro s s' h
  unfold expected_in_degree
  rw [h.inn.isNone]
  split
  · exact (degree_rel hσ E r).bind (fun _ _ _ => getIn_rel) s s' h
  · exact getIn_rel s s' h

theorem byDir_rel (hσ : Renum n σ) (E : Ens) (e : Err) (d : Dir) (r : Bool) :
    MRel σ n (Arr σ n) (degreeByDir E n e d r) (degreeByDir (ens σ E) n e d r) := by
  cases d with
  | out => exact out_degree_rel hσ E r
  | inn => exact in_degree_rel hσ E r
  | outIn => exact degree_rel hσ E r
  | underscored | other => exact MRel.error e

theorem setSelfloops_sim {δ : Type} {s s' : St δ} (b : Bool) (h : Sim σ n s s') :
    Sim σ n (setSelfloops b s) (setSelfloops b s') :=
  ⟨h.param, rfl, h.edges, h.deg, h.out, h.inn, h.av⟩

theorem restore_sim {δ : Type} {s s' : St δ} (b : Bool) (h : Sim σ n s s') :
    Sim σ n (restore b s) (restore b s') := by
  unfold restore
  rw [h.selfloops]
  split
  · exact ⟨h.param, rfl, h.edges, .none, .none, .none, h.av⟩
  · exact h

theorem average_rel {v v' d d' : ℕ → XR} (hv : Arr σ n v v') (hd : Arr σ n d d') :
    Arr σ n (average v d) (average v' d') := by
  intro i hi
  unfold average
  rw [hv i hi, hd i hi]

theorem all_renum (hσ : Renum n σ) {f g : ℕ → Bool} (h : ∀ i < n, g i = f (σ i)) :
    (List.range n).all g = (List.range n).all f := by
  rw [Bool.eq_iff_iff, List.all_eq_true, List.all_eq_true]
  simp only [List.mem_range]
  constructor
  · intro hg i hi
    have h1 : σ.symm i < n := (hσ _).1 (by simpa using hi)
    have h2 := hg _ h1
    rw [h _ h1] at h2
    simpa using h2
  · intro hf i hi
    rw [h i hi]
    exact hf _ ((hσ i).2 hi)

theorem property_rel (hσ : Renum n σ) (E : Ens) (hd : DyadConst E) (jUndef len : ℕ)
    {x x' : ℕ → XR} (hx : Arr σ n x x') (ndir : Dir) (sl : Option Bool) (dr : Bool) :
    MRel σ n (Arr σ n) (expected_av_nn_property jUndef E n len x ndir sl dr)
      (expected_av_nn_property jUndef (ens σ E) n len x' ndir sl dr) := by
  intro s s' h
  unfold expected_av_nn_property
  rw [h.param]
  cases s.param with
  | none => exact ⟨.error _, h⟩
  | some θ =>
    dsimp only
    split
    · exact ⟨.error _, h⟩
    · rw [h.selfloops]
      by_cases hk : ndir.Known
      swap
      · cases ndir with
        | out | inn | outIn => exact absurd trivial hk
        | underscored | other => exact ⟨.error _, setSelfloops_sim _ h⟩
      refine (byDir_rel hσ E .badNdir ndir _).bind (fun deg deg' hdeg => ?_) _ _
        (setSelfloops_sim _ h)
      intro t t' ht
      dsimp only
      rw [ht.selfloops]
      obtain ⟨v, v', hv, hv', hvv⟩ := av_nn_renum hσ (at_ E θ) hd jUndef x x' hx ndir hk
        t.selfloops
      have hv1 : exp_av_nn_prop jUndef E.p_ij θ n E.prop_out E.prop_in E.prop_dyad x ndir
        t.selfloops = .ok v := hv
      have hv2 : exp_av_nn_prop jUndef (ens σ E).p_ij θ n (ens σ E).prop_out (ens σ E).prop_in
        (ens σ E).prop_dyad x' ndir t.selfloops = .ok v' := hv'
      rw [hv1, hv2]
      dsimp only
      rw [all_renum hσ (f := fun i => !(deg i).isZero || (v i).isZero)
        (g := fun i => !(deg' i).isZero || (v' i).isZero)
        (fun i hi => by rw [hdeg i hi, hvv i hi])]
      split
      · exact ⟨.ok (average_rel hvv hdeg), restore_sim _ ht⟩
      · exact ⟨.error _, ht⟩

theorem setAv_sim {δ : Type} {s s' : St δ} (a c : Dir) {v v' : ℕ → XR} (hv : Arr σ n v v')
    (h : Sim σ n s s') : Sim σ n (setAv a c v s) (setAv a c v' s') := by
  refine ⟨h.param, h.selfloops, h.edges, h.deg, h.out, h.inn, fun a' c' => ?_⟩
  unfold setAv
  dsimp only
  split
  · exact .some hv
  · exact h.av a' c'

theorem getAv_rel {δ : Type} (a c : Dir) : MRel (δ := δ) σ n (Arr σ n) (getAv a c) (getAv a c) :=
  fun _ _ h => get_res (h.av a c) h

theorem avDegree_rel (hσ : Renum n σ) (E : Ens) (hd : DyadConst E) (jUndef : ℕ) (ddir ndir : Dir)
    (sl : Option Bool) (dr r : Bool) :
    MRel σ n (Arr σ n) (expected_av_nn_degree jUndef E n ddir ndir sl dr r)
      (expected_av_nn_degree jUndef (ens σ E) n ddir ndir sl dr r) := by
  intro s s' h
  unfold expected_av_nn_degree
  rw [h.param]
  cases s.param with
  | none => exact ⟨.error _, h⟩
  | some θ =>
    dsimp only
    rw [(h.av ndir.key ddir.key).isNone, h.selfloops]
    split
    · refine (byDir_rel hσ E .badDdir ddir _).bind (fun deg deg' hdeg => ?_) _ _
        (setSelfloops_sim _ h)
      refine (property_rel hσ E hd jUndef n hdeg ndir _ _).bind (fun v v' hv => ?_)
      intro t t' ht
      exact getAv_rel _ _ _ _ (restore_sim _ (setAv_sim _ _ hv ht))
    · exact getAv_rel _ _ _ _ h

theorem MRel.map {δ α : Type} {R : α → α → Prop} {m m' : M δ α} {f : α → Ret}
    (hm : MRel σ n R m m') (hf : ∀ a a', R a a' → Same σ n (.ok (f a)) (.ok (f a'))) (s s' : St δ)
    (h : Sim σ n s s') :
    Same σ n (M.map f m s).1 (M.map f m' s').1 ∧ Sim σ n (M.map f m s).2 (M.map f m' s').2 := by
  obtain ⟨h1, h2⟩ := hm s s' h
  unfold M.map M.bind
  generalize m s = r at h1 h2
  generalize m' s' = r' at h1 h2
  obtain ⟨a, t⟩ := r
  obtain ⟨a', t'⟩ := r'
  cases h1 with
  | error e => exact ⟨rfl, h2⟩
  | ok h => exact ⟨hf _ _ h, h2⟩

/-- A call that reads the neighbours of the vertices. -/
def IsAv {δ : Type} : Op δ → Prop
  | .avNnProp .. | .avNnDegree .. => True
  | _ => False

theorem call_rel (hσ : Renum n σ) (E : Ens) (jUndef : ℕ) (o : Op E.δ) (hd : IsAv o → DyadConst E)
    (s s' : St E.δ) (h : Sim σ n s s') :
    Same σ n (call jUndef E n o s).1 (call jUndef (ens σ E) n (op σ o) s').1 ∧
    Sim σ n (call jUndef E n o s).2 (call jUndef (ens σ E) n (op σ o) s').2 := by
  cases o with
  | fit θ => exact ⟨trivial, ⟨rfl, h.selfloops, h.edges, h.deg, h.out, h.inn, h.av⟩⟩
  | numEdges r => exact (num_edges_rel hσ E r).map (f := .num) (fun _ _ h => h) s s' h
  | degree r => exact (degree_rel hσ E r).map (f := .arr) (fun _ _ h => h) s s' h
  | outDegree r => exact (out_degree_rel hσ E r).map (f := .arr) (fun _ _ h => h) s s' h
  | inDegree r => exact (in_degree_rel hσ E r).map (f := .arr) (fun _ _ h => h) s s' h
  | avNnProp len x ndir sl dr =>
    exact (property_rel hσ E (hd trivial) jUndef len (fun i _ => rfl) ndir sl dr).map
      (f := .arr) (fun _ _ h => h) s s' h
  | avNnDegree ddir ndir sl dr r =>
    exact (avDegree_rel hσ E (hd trivial) jUndef ddir ndir sl dr r).map (f := .arr)
      (fun _ _ h => h) s s' h

theorem run_rel (hσ : Renum n σ) (E : Ens) (jUndef : ℕ) (ops : List (Op E.δ))
    (hd : ∀ o ∈ ops, IsAv o → DyadConst E) (s s' : St E.δ) (h : Sim σ n s s') :
    List.Forall₂ (Same σ n) (run jUndef E n ops s).1
      (run jUndef (ens σ E) n (ops.map (op σ)) s').1 := by
  induction ops generalizing s s' with
  | nil => exact .nil
  | cons o ops ih =>
    obtain ⟨h1, h2⟩ := call_rel hσ E jUndef o (hd o (by simp)) s s' h
    exact .cons h1 (ih (fun o ho => hd o (List.mem_cons_of_mem _ ho)) _ _ h2)

theorem init_sim (δ : Type) (b : Bool) : Sim σ n (init δ b) (init δ b) :=
  ⟨rfl, rfl, rfl, .none, .none, .none, fun _ _ => .none⟩

/-- Whatever the caller does with the two objects, every result and every exception is the same up
to the order of the vertices.  Missing: ensembles whose dyadic property varies, see
`C90_dyad_violated`. -/
theorem C90_history_partial (hσ : Renum n σ) (E : Ens) (hd : DyadConst E) (jUndef : ℕ) (b : Bool)
    (ops : List (Op E.δ)) :
    List.Forall₂ (Same σ n) (run jUndef E n ops (init _ b)).1
      (run jUndef (ens σ E) n (ops.map (op σ)) (init _ b)).1 :=
  run_rel hσ E jUndef ops (fun _ _ _ => hd) _ _ (init_sim _ b)

/-- With any dyadic property, as long as the neighbour averages are not asked for. -/
theorem C90_history_no_averages (hσ : Renum n σ) (E : Ens) (jUndef : ℕ) (b : Bool)
    (ops : List (Op E.δ)) (ho : ∀ o ∈ ops, ¬ IsAv o) :
    List.Forall₂ (Same σ n) (run jUndef E n ops (init _ b)).1
      (run jUndef (ens σ E) n (ops.map (op σ)) (init _ b)).1 :=
  run_rel hσ E jUndef ops (fun o h1 h2 => absurd h2 (ho o h1)) _ _ (init_sim _ b)

theorem swap_renum : Renum 2 (Equiv.swap 0 1) := by
  intro i
  by_cases h0 : i = 0
  · subst h0; simp
  · by_cases h1 : i = 1
    · subst h1; simp
    · rw [Equiv.swap_apply_of_ne_of_ne h0 h1]

/-- Two different vertices, without dyadic property. -/
noncomputable def twoWit : Ens :=
  Ens.sparseFit 1 (fun i => if i = 0 then 1 else 2) (fun i => if i = 0 then 3 else 1) (fun _ _ => 1)

theorem twoWit_model : twoWit.IsModel := .sparseFit _ _ _ _

theorem twoWit_dyad : DyadConst twoWit := fun _ _ _ _ => rfl

/-- The hypotheses are met, and the renumbered ensemble differs from the original. -/
example : Renum 2 (Equiv.swap 0 1) ∧ DyadConst twoWit ∧ 0 < 2 ∧
    (ens (Equiv.swap 0 1) twoWit).prop_out 0 = twoWit.prop_out 1 :=
  ⟨swap_renum, twoWit_dyad, by norm_num, by simp [ens]⟩

/-- Calls without neighbour averages. -/
example : ∀ o ∈ [Op.fit (ofENN 1), Op.degree false, Op.numEdges true], ¬ IsAv (δ := XR) o := by
  simp [IsAv]

/-- The two vertices of `dyadWit` listed in the other order. -/
theorem dyadWit_swapped (jUndef : ℕ) :
    ∃ v, (expected_av_nn_property jUndef (ens (Equiv.swap 0 1) dyadWit) 2 2 (fun _ => fin 1) .out
      none false (newly (ofENN 1) true)).1 = .ok v ∧ v 0 = fin 1 := by
  set D : Ens := ens (Equiv.swap 0 1) dyadWit with hD
  have hd : ∀ i j, D.prop_dyad i j = ofENN (if i = 0 ∧ j = 0 then 0 else 1) := by
    intro i j
    show ofENN (if Equiv.swap 0 1 i = 1 ∧ Equiv.swap 0 1 j = 1 then 0 else 1) = _
    have h : ∀ k : ℕ, Equiv.swap 0 1 k = 1 ↔ k = 0 := by
      intro k
      rw [← Equiv.eq_symm_apply]; simp
    simp only [h]
  have hp : ∀ i j, D.p_ij (ofENN 1) (D.prop_out i) (D.prop_in j)
      (D.prop_dyad i j) = fin (if i = 0 ∧ j = 0 then 0 else 1 / 2) := by
    intro i j
    rw [hd]
    refine (sparse_fit_p_ij 1 1 1 (if i = 0 ∧ j = 0 then 0 else 1)).trans ?_
    by_cases h : i = 0 ∧ j = 0
    · simp [h, Spec.fitProb]
    · simp [h, Spec.fitProb]; norm_num
  have hp' : ∀ i j, D.p_ij (ofENN 1) (D.prop_out i) (D.prop_in i)
      (D.prop_dyad i j) = fin (if i = 0 ∧ j = 0 then 0 else 1 / 2) := hp
  have hr : List.range 2 = [0, 1] := rfl
  have hr1 : List.range 1 = [0] := rfl
  have hav : exp_av_nn_prop jUndef D.p_ij (ofENN 1) 2 D.prop_out D.prop_in
      D.prop_dyad (fun _ => fin 1) .out true
      = .ok (fun k => if k = 0 then fin (1 / 2) else if k = 1 then fin 1 else fin 0) := by
    unfold exp_av_nn_prop
    simp only [hr, List.foldlM, hr1, List.range_zero, exp_av_nn_step, exp_av_nn_self, hp, hp']
    simp only [bind, Except.bind, pure, Except.pure]
    rw [if_pos trivial]
    congr 1
    funext k
    unfold addAt zeros
    simp only [zero_def]
    by_cases h0 : k = 0
    · subst h0; simp
    · by_cases h1 : k = 1
      · subst h1; simp; norm_num
      · simp [h0, h1]
  have hsum := fun i hi => (exp_degrees_at' (p_ij := D.p_ij) (param := (ofENN 1 : XR))
    (prop_out := D.prop_out) (prop_in := D.prop_in) (prop_dyad := D.prop_dyad) (n := 2) true i
    hi).2.1
  have h0 : pick .out ((at_ D (ofENN 1)).exp_degrees 2 true) 0 = fin (1 / 2) := by
    refine (hsum 0 (by norm_num)).trans ?_
    simp only [on, admissible, hp, Finset.sum_range_succ, Finset.sum_range_zero]
    norm_num
  have h1 : pick .out ((at_ D (ofENN 1)).exp_degrees 2 true) 1 = fin 1 := by
    refine (hsum 1 (by norm_num)).trans ?_
    simp only [on, admissible, hp, Finset.sum_range_succ, Finset.sum_range_zero]
    norm_num
  refine ⟨average (fun k => if k = 0 then fin (1 / 2) else if k = 1 then fin 1 else fin 0)
    (pick .out ((at_ D (ofENN 1)).exp_degrees 2 true)), ?_, ?_⟩
  · rw [newly_av D jUndef 2 (ofENN 1) true (fun _ => fin 1) .out (by simp) _ hav]
    simp [hr, h0, h1]
  · unfold average
    rw [h0]
    simp
    rw [fin_div_fin _ _ (by norm_num)]
    norm_num

/-- With a dyadic property that varies, the average over the neighbours of a vertex depends on the
place of the vertex in the list: the same vertex has average 2 when listed last and 1 when listed
first. -/
theorem C90_dyad_violated (jUndef : ℕ) : ∃ (E : Ens) (σ : Equiv.Perm ℕ) (θ : E.δ), Renum 2 σ ∧
    ∃ v v', (expected_av_nn_property jUndef E 2 2 (fun _ => fin 1) .out none false
        (newly θ true)).1 = .ok v ∧
      (expected_av_nn_property jUndef (ens σ E) 2 2 (fun i => (fun _ => fin 1) (σ i)) .out none
        false (newly θ true)).1 = .ok v' ∧ v' 0 ≠ v (σ 0) := by
  obtain ⟨v, hv, h2⟩ := C17_dyad_violated jUndef
  obtain ⟨v', hv', h1⟩ := dyadWit_swapped jUndef
  refine ⟨dyadWit, Equiv.swap 0 1, ofENN 1, swap_renum, v, v', hv, hv', ?_⟩
  rw [h1, Equiv.swap_apply_left, h2]
  simp

end Relabel

end Verif
