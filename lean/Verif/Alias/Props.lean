import Verif.Alias.PutLemmas
import Verif.Solver.FitLemmas

/-!
# C106: arrays shared between ensembles and their callers
-/

namespace Verif

open XR DiGraphEnsemble

namespace Alias

/-! ## Several ensembles in one memory -/

/-- Several ensembles, which may have arrays in common. -/
structure Sys (ι : Type) where
  mem : Mem
  obj : ι → Obj

/-- One of them. -/
def Sys.one {ι : Type} (σ : Sys ι) (i : ι) : S := ⟨σ.mem, σ.obj i⟩

/-- Its state with the arrays replaced by their contents. -/
noncomputable def Sys.view {ι : Type} (σ : Sys ι) (i : ι) : Query.St XR := (σ.one i).view

variable {ι : Type} [DecidableEq ι]

/-- A call on ensemble `i`. -/
noncomputable def Sys.call (jUndef : ℕ) (c : ι → Cls) (i : ι) (k : Call) (σ : Sys ι) :
    Out Addr × Sys ι :=
  let r := Alias.call jUndef (c i) k (σ.one i)
  (r.1, ⟨r.2.mem, Function.update σ.obj i r.2.obj⟩)

/-- A sequence of calls on the ensembles, in any order. -/
noncomputable def Sys.run (jUndef : ℕ) (c : ι → Cls) :
    List (ι × Call) → Sys ι → List (ι × Out Addr) × Sys ι
  | [], σ => ([], σ)
  | k :: ks, σ =>
    let r := σ.call jUndef c k.1 k.2
    let rest := Sys.run jUndef c ks r.2
    ((k.1, r.1) :: rest.1, rest.2)

/-- The attributes of the ensembles are existing arrays. -/
def Sys.Valid (σ : Sys ι) : Prop := ∀ i, (σ.one i).Valid

/-- The arrays given to the calls exist when they are given. -/
def Sys.Legal (jUndef : ℕ) (c : ι → Cls) : List (ι × Call) → Sys ι → Prop
  | [], _ => True
  | k :: ks, σ => (∀ a, k.2.Uses a → a < σ.mem.next) ∧
      Sys.Legal jUndef c ks (σ.call jUndef c k.1 k.2).2

theorem sys_step {jUndef : ℕ} {c : ι → Cls} {i : ι} {k : Call} {σ : Sys ι} (hv : σ.Valid)
    (hk : ∀ a, k.Uses a → a < σ.mem.next) :
    (σ.call jUndef c i k).2.Valid ∧ σ.mem.Ext (σ.call jUndef c i k).2.mem ∧
      (∀ j, ((σ.call jUndef c i k).2.obj j).prop_out = (σ.obj j).prop_out ∧
        ((σ.call jUndef c i k).2.obj j).prop_in = (σ.obj j).prop_in) := by
  have h := (post_call (c i) jUndef (σ.one i) (hv i) ⟨rfl, rfl⟩ k hk).keeps
  refine ⟨fun j => ?_, h.ext, fun j => ?_⟩
  · unfold Sys.one Sys.call
    by_cases hj : j = i
    · subst hj
      simp only [Function.update_self]
      exact h.valid
    · simp only [Function.update_of_ne hj]
      exact fun a ha => (hv j a ha).trans_le h.ext.1
  · unfold Sys.call
    by_cases hj : j = i
    · subst hj
      simp only [Function.update_self]
      exact ⟨h.out, h.inn⟩
    · simp only [Function.update_of_ne hj]
      exact ⟨trivial, trivial⟩

theorem sys_run {jUndef : ℕ} {c : ι → Cls} (ks : List (ι × Call)) {σ : Sys ι} (hv : σ.Valid)
    (hl : σ.Legal jUndef c ks) :
    (σ.run jUndef c ks).2.Valid ∧ σ.mem.Ext (σ.run jUndef c ks).2.mem ∧
      (∀ j, ((σ.run jUndef c ks).2.obj j).prop_out = (σ.obj j).prop_out ∧
        ((σ.run jUndef c ks).2.obj j).prop_in = (σ.obj j).prop_in) := by
  induction ks generalizing σ with
  | nil => exact ⟨hv, .refl _, fun j => ⟨rfl, rfl⟩⟩
  | cons k ks ih =>
    obtain ⟨h1, h2, h3⟩ := sys_step (c := c) (i := k.1) hv hl.1
    obtain ⟨i1, i2, i3⟩ := ih h1 hl.2
    exact ⟨i1, h2.trans i2, fun j => ⟨(i3 j).1.trans (h3 j).1, (i3 j).2.trans (h3 j).2⟩⟩

/-- No call of any ensemble changes the contents of an array that existed before: not the
properties, not a starting point, not an array returned by an earlier call. -/
theorem C106_unchanged (jUndef : ℕ) (c : ι → Cls) (ks : List (ι × Call)) (σ : Sys ι)
    (hv : σ.Valid) (hl : σ.Legal jUndef c ks) (a : Addr) (ha : a < σ.mem.next) :
    (σ.run jUndef c ks).2.mem.cell a = σ.mem.cell a :=
  (sys_run ks hv hl).2.1.2 a ha

/-- The arrays of a call that exist keep their contents. -/
theorem val_ext {m m' : Mem} (h : m.Ext m') (k : Call) (hk : ∀ a, k.Uses a → a < m.next) :
    k.val m' = k.val m := by
  cases k with
  | fit x0 method o =>
    cases x0 with
    | none => rfl
    | scalar v b => rfl
    | array a len i num => simp only [Call.val, Start.read, h.2 a (hk a rfl)]
  | avNnProp len prop ndir sl dr => simp only [Call.val, h.2 prop (hk prop rfl)]
  | _ => rfl

theorem out_ext {m m' : Mem} (h : m.Ext m') (r : Out Addr) (hr : ∀ a, r = .arr a → a < m.next) :
    r.map m'.cell = r.map m.cell := by
  cases r with
  | arr a => simp only [Out.map, h.2 a (hr a rfl)]
  | _ => rfl

/-- As long as the callers only read the arrays, passing them by reference gives the same as
passing them by value.  For any interleaving of calls on any number of ensembles that may share
arrays with each other and with the caller, with arrays obtained from earlier calls used as
arguments of later ones: the results of ensemble `i`, read at the end, and its final state are those
of the value model (`Query.call`, `Fit.fitSingle`) on the calls of ensemble `i` alone. -/
theorem C106_values (jUndef : ℕ) (c : ι → Cls) (ks : List (ι × Call)) (σ : Sys ι)
    (hv : σ.Valid) (hl : σ.Legal jUndef c ks) (i : ι) :
    vrun jUndef (c i) (σ.mem.cell (σ.obj i).prop_out) (σ.mem.cell (σ.obj i).prop_in)
        ((ks.filter (fun k => k.1 = i)).map (fun k => k.2.val (σ.run jUndef c ks).2.mem)) (σ.view i)
      = ((((σ.run jUndef c ks).1.filter (fun r => r.1 = i)).map
            (fun r => r.2.map (σ.run jUndef c ks).2.mem.cell)),
          (σ.run jUndef c ks).2.view i) := by
  induction ks generalizing σ with
  | nil => rfl
  | cons k ks ih =>
    obtain ⟨h1, h2, h3⟩ := sys_step (c := c) (i := k.1) hv hl.1
    have hrec := ih _ h1 hl.2
    obtain ⟨-, hx, -⟩ := sys_run ks h1 hl.2
    have hreads : (σ.call jUndef c k.1 k.2).2.mem.cell
          ((σ.call jUndef c k.1 k.2).2.obj i).prop_out = σ.mem.cell (σ.obj i).prop_out ∧
        (σ.call jUndef c k.1 k.2).2.mem.cell
          ((σ.call jUndef c k.1 k.2).2.obj i).prop_in = σ.mem.cell (σ.obj i).prop_in := by
      rw [(h3 i).1, (h3 i).2]
      exact ⟨h2.2 _ (hv i).out, h2.2 _ (hv i).inn⟩
    rw [hreads.1, hreads.2] at hrec
    have hrun : σ.run jUndef c (k :: ks) =
        ((k.1, (σ.call jUndef c k.1 k.2).1) :: ((σ.call jUndef c k.1 k.2).2.run jUndef c ks).1,
          ((σ.call jUndef c k.1 k.2).2.run jUndef c ks).2) := rfl
    rw [hrun]
    generalize hf : (σ.call jUndef c k.1 k.2).2.run jUndef c ks = f at hrec hx ⊢
    by_cases hi : k.1 = i
    · have hp := post_call (c k.1) jUndef (σ.one k.1) (hv k.1) ⟨rfl, rfl⟩ k.2 hl.1
      simp only [List.filter_cons, hi, decide_true, if_true, List.map_cons]
      have hval : k.2.val f.2.mem = k.2.val σ.mem := val_ext (h2.trans hx) k.2 hl.1
      rw [hval]
      subst hi
      have hview : (σ.call jUndef c k.1 k.2).2.view k.1 =
          (Alias.call jUndef (c k.1) k.2 (σ.one k.1)).2.view := by
        have ho : (σ.call jUndef c k.1 k.2).2.obj k.1 =
            (Alias.call jUndef (c k.1) k.2 (σ.one k.1)).2.obj := Function.update_self _ _ _
        unfold Sys.view Sys.one
        rw [ho]
        rfl
      rw [hview] at hrec
      have hq : vcall jUndef (c k.1) (σ.mem.cell (σ.obj k.1).prop_out)
          (σ.mem.cell (σ.obj k.1).prop_in) (k.2.val σ.mem) (σ.view k.1) = _ := hp.eq
      unfold vrun
      dsimp only
      rw [hq]
      dsimp only
      rw [hrec]
      have : (Alias.call jUndef (c k.1) k.2 (σ.one k.1)).1.map f.2.mem.cell =
          (Alias.call jUndef (c k.1) k.2 (σ.one k.1)).1.map
            (Alias.call jUndef (c k.1) k.2 (σ.one k.1)).2.mem.cell :=
        out_ext hx _ hp.good
      rw [← this]
      rfl
    · simp only [List.filter_cons, hi, decide_false, Bool.false_eq_true, if_false]
      have hview : (σ.call jUndef c k.1 k.2).2.view i = σ.view i := by
        have hne : i ≠ k.1 := fun e => hi e.symm
        unfold Sys.view Sys.one Sys.call
        simp only [Function.update_of_ne hne]
        exact view_ext (σ.one i) (hv i) _ h2
      rw [hview] at hrec
      exact hrec

/-- Ensembles built from existing arrays satisfy the hypothesis. -/
theorem C106_construct (m : Mem) (prop_out prop_in : Addr) (param : Param) (selfloops : Bool)
    (h1 : prop_out < m.next) (h2 : prop_in < m.next) (h3 : ∀ a, param = .array a → a < m.next) :
    (construct m prop_out prop_in param selfloops).Valid ∧
      m.Ext (construct m prop_out prop_in param selfloops).mem := by
  cases param with
  | none =>
    refine ⟨?_, .refl _⟩
    rintro a (rfl | rfl | h | h | h | h | ⟨i, j, h⟩)
    · exact h1
    · exact h2
    all_goals cases h
  | array b =>
    refine ⟨?_, .refl _⟩
    rintro a (rfl | rfl | h | h | h | h | ⟨i, j, h⟩)
    · exact h1
    · exact h2
    · cases h; exact h3 b rfl
    all_goals cases h
  | number v =>
    refine ⟨?_, m.alloc_ext _⟩
    rintro a (rfl | rfl | h | h | h | h | ⟨i, j, h⟩)
    · exact Nat.lt_succ_of_lt h1
    · exact Nat.lt_succ_of_lt h2
    · cases h; exact Nat.lt_succ_self _
    all_goals cases h

/-! ## Writes of the caller -/

/-- A write of the caller into an array that is not an attribute of the ensemble and is not given
to it has no influence: the results are the same objects with the same contents, apart from the
array written.  Missing for the full claim: arrays that are attributes, for which it is false (see
`C106_param_violated`, `C106_property_violated`, `C106_degree_computed`, `C106_start_violated`). -/
theorem C106_private_partial (jUndef : ℕ) (c : Cls) (ks : List Call) (s : S) (a : Addr)
    (w : ℕ → XR) (ha : a < s.mem.next) (ho : ¬ s.obj.Owns a) (hu : ∀ k ∈ ks, ¬ k.Uses a) :
    run jUndef c ks (s.put a w) =
        ((run jUndef c ks s).1, (run jUndef c ks s).2.put a w) ∧
      (∀ r ∈ (run jUndef c ks s).1, r ≠ .arr a) ∧
      ((run jUndef c ks s).2.put a w).view = (run jUndef c ks s).2.view := by
  have view_put : ∀ s : S, s.Free a → (s.put a w).view = s.view := by
    intro s h
    have hm : ∀ o : Option Addr, (∀ b, o = some b → b ≠ a) →
        o.map (s.mem.put a w).cell = o.map s.mem.cell := by
      rintro (_ | b) hb
      · rfl
      · simp only [Option.map_some, put_cell (hb b rfl)]
    have h0 : s.obj.param.map (fun b => (s.mem.put a w).cell b 0) =
        s.obj.param.map (fun b => s.mem.cell b 0) := by
      cases hp : s.obj.param with
      | none => rfl
      | some b => simp only [Option.map_some, put_cell (free_param h hp)]
    have h7 : ∀ i j, (s.obj.exp_av i j).map (s.mem.put a w).cell =
        (s.obj.exp_av i j).map s.mem.cell := fun i j => hm _ (fun b hb => free_av h hb)
    simp only [S.view, S.put, h0, h7, hm _ (fun b hb => free_deg h hb),
      hm _ (fun b hb => free_dout h hb), hm _ (fun b hb => free_din h hb)]
  suffices H : ∀ (ks : List Call) (s : S), s.Free a → (∀ k ∈ ks, ¬ k.Uses a) →
      run jUndef c ks (s.put a w) = ((run jUndef c ks s).1, (run jUndef c ks s).2.put a w) ∧
      (∀ r ∈ (run jUndef c ks s).1, r ≠ .arr a) ∧ (run jUndef c ks s).2.Free a by
    obtain ⟨h1, h2, h3⟩ := H ks s ⟨ha, ho⟩ hu
    exact ⟨h1, h2, view_put _ h3⟩
  intro ks
  induction ks with
  | nil => exact fun s h _ => ⟨rfl, by simp [run], h⟩
  | cons k ks ih =>
    intro s h hu
    have hk := comm_call c (w := w) jUndef h k (hu k (by simp))
    obtain ⟨i1, i2, i3⟩ := ih _ hk.free (fun k' hk' => hu k' (by simp [hk']))
    refine ⟨?_, ?_, i3⟩
    · unfold run
      dsimp only
      rw [hk.eq]
      dsimp only
      rw [i1]
    · intro r hr
      unfold run at hr
      dsimp only at hr
      rcases List.mem_cons.1 hr with rfl | hr
      · exact hk.ne
      · exact i2 r hr

/-- The array returned by `expected_av_nn_property` is new and not kept by the ensemble, so that
the caller may change it. -/
theorem C106_average_partial (jUndef : ℕ) (c : Cls) (len : ℕ) (prop : Addr) (ndir : Dir)
    (sl : Option Bool) (dr : Bool) (s s' : S) (a : Addr) (hs : s.Valid)
    (h : call jUndef c (.avNnProp len prop ndir sl dr) s = (.arr a, s')) :
    s.mem.next ≤ a ∧ a < s'.mem.next ∧ ¬ s'.obj.Owns a := by
  have h' : expected_av_nn_property jUndef c len prop ndir sl dr s = (.ok a, s') := by
    have : Prod.map (Out.of .arr) id (expected_av_nn_property jUndef c len prop ndir sl dr s) =
      (.arr a, s') := h
    generalize expected_av_nn_property jUndef c len prop ndir sl dr s = r at this
    obtain ⟨e | b, t⟩ := r
    · cases this
    · cases this; rfl
  unfold expected_av_nn_property at h'
  cases hp : s.obj.param with
  | none => rw [hp] at h'; cases h'
  | some b =>
    rw [hp] at h'
    dsimp only at h'
    split_ifs at h' with hlen
    · cases h'
    generalize sl.getD s.obj.selfloops = sl' at h'
    generalize (dr || (sl' != s.obj.selfloops)) = dr' at h'
    have hk0 := keeps_setSelfloops s hs sl'
    have hd := post_byDir c (setSelfloops sl' s) hk0.valid (x := s.mem.cell s.obj.prop_out)
      (y := s.mem.cell s.obj.prop_in) ⟨rfl, rfl⟩ .badNdir ndir dr'
    have hk := hd.keeps
    unfold M.bind at h'
    generalize degreeByDir c .badNdir ndir dr' (setSelfloops sl' s) = r at h' hk
    obtain ⟨e | deg, t⟩ := r
    · cases h'
    · dsimp only at h' hk
      split at h'
      · cases h'
      · split_ifs at h' with hc
        swap
        · cases h'
        simp only [Prod.mk.injEq, Except.ok.injEq] at h'
        obtain ⟨rfl, rfl⟩ := h'
        have hle : s.mem.next ≤ t.mem.next := hk.ext.1
        refine ⟨hle, ?_, ?_⟩
        · rw [mem_restore]; exact Nat.lt_succ_self _
        · intro hown
          have hown' : t.obj.Owns t.mem.next := by
            unfold restore at hown
            split at hown
            · rcases hown with h | h | h | h | h | h | ⟨i, j, h⟩
              · exact .inl h
              · exact .inr (.inl h)
              · exact .inr (.inr (.inl h))
              · cases h
              · cases h
              · cases h
              · exact .inr (.inr (.inr (.inr (.inr (.inr ⟨i, j, h⟩)))))
            · exact hown
          exact lt_irrefl _ (hk.valid _ hown')

/-- The array returned by `expected_degree` is the stored one: whatever the caller writes into it is
what `expected_degree()` returns from then on.  With `recompute=True` the correct values come back,
in a new array. -/
theorem C106_degree_computed (jUndef : ℕ) (c : Cls) (s : S) (hs : s.Valid)
    (hp : s.obj.param.isSome) :
    ∃ a s', call jUndef c (.degree true) s = (.arr a, s') ∧ s.mem.next ≤ a ∧
      ∀ w, call jUndef c (.degree false) (s'.put a w) = (.arr a, s'.put a w) ∧
        (s'.put a w).mem.cell a = w ∧
        ∃ a' s'', call jUndef c (.degree true) (s'.put a w) = (.arr a', s'') ∧ a' ≠ a ∧
          s''.mem.cell a' = s'.mem.cell a := by
  obtain ⟨b, hb⟩ := Option.isSome_iff_exists.1 hp
  have step : ∀ s : S, s.obj.param = some b → call jUndef c (.degree true) s =
      (.arr s.mem.next,
          { mem := ((s.mem.alloc ((s.ens c b).exp_degrees c.n s.obj.selfloops).exp_d).alloc
              ((s.ens c b).exp_degrees c.n s.obj.selfloops).exp_d_out).alloc
              ((s.ens c b).exp_degrees c.n s.obj.selfloops).exp_d_in
            obj := { s.obj with exp_degree := some s.mem.next,
                                exp_out_degree := some (s.mem.next + 1),
                                exp_in_degree := some (s.mem.next + 2) } }) := by
    intro s hb
    unfold call expected_degree
    dsimp only
    rw [hb]
    simp only [Bool.or_true, if_true]
    rfl
  refine ⟨_, _, step s hb, le_rfl, fun w => ?_⟩
  set s' : S :=
      { mem := ((s.mem.alloc ((s.ens c b).exp_degrees c.n s.obj.selfloops).exp_d).alloc
              ((s.ens c b).exp_degrees c.n s.obj.selfloops).exp_d_out).alloc
              ((s.ens c b).exp_degrees c.n s.obj.selfloops).exp_d_in
        obj := { s.obj with exp_degree := some s.mem.next,
                                exp_out_degree := some (s.mem.next + 1),
                                exp_in_degree := some (s.mem.next + 2) } } with hs'
  obtain ⟨e1, -, -, hx⟩ := three s.mem ((s.ens c b).exp_degrees c.n s.obj.selfloops).exp_d
    ((s.ens c b).exp_degrees c.n s.obj.selfloops).exp_d_out
    ((s.ens c b).exp_degrees c.n s.obj.selfloops).exp_d_in
  have hb' : (s'.put s.mem.next w).obj.param = some b := hb
  refine ⟨?_, put_self _ _ _, _, _, step _ hb', ?_, ?_⟩
  · unfold call expected_degree
    dsimp only
    rw [hb']
    rfl
  · exact Nat.ne_of_gt (Nat.lt_succ_of_lt (Nat.lt_succ_of_lt (Nat.lt_succ_self s.mem.next)))
  · have hens : (s'.put s.mem.next w).ens c b = s.ens c b := by
      unfold S.ens
      have h1 : ∀ d, d < s.mem.next → (s'.put s.mem.next w).mem.cell d = s.mem.cell d :=
        fun d hd => (put_cell (Nat.ne_of_lt hd) w).trans (hx.2 d hd)
      have h2 := h1 _ hs.out
      have h3 := h1 _ hs.inn
      have h4 := h1 _ (hs.param hb)
      have ho : (s'.put s.mem.next w).obj.prop_out = s.obj.prop_out := rfl
      have hi : (s'.put s.mem.next w).obj.prop_in = s.obj.prop_in := rfl
      rw [ho, hi, h2, h3, h4]
    rw [hens]
    exact (three _ _ _ _).1.trans e1.symm

/-! ## What the caller can change -/

/-- Sparse `FitnessModel` on two vertices with the default dyadic property. -/
noncomputable def demo (num_edges : Option ℝ) : Cls where
  ζ := XR
  p_ij := Sparse.FitnessModel.p_ij
  logp := Sparse.FitnessModel.logp
  log1mp := Sparse.FitnessModel.log1mp
  p_jac_ij := Sparse.FitnessModel.p_jac_ij
  prop_dyad := fun _ _ => 1
  n := 2
  num_edges := num_edges

/-- Two arrays: ones at address 0 (used for the properties) and ones at address 1 (used for the
parameter). -/
noncomputable def ones : Mem := ⟨fun _ _ => 1, 2⟩

theorem demo_half : Sparse.FitnessModel.p_ij 1 1 1 1 = fin (1 / 2) := by
  have h1 : (1 : XR) = fin 1 := rfl
  simp [Sparse.FitnessModel.p_ij, h1, isZero, isInf]
  norm_num
  exact fin_div_fin _ _ (by norm_num)

theorem demo_edges (ne : Option ℝ) (x y : ℕ → XR) (θ : XR) (q : ℝ)
    (h : ∀ i < 2, ∀ j < 2, Sparse.FitnessModel.p_ij θ (x i) (y j) 1 = fin q) :
    ((demo ne).ens x y θ).exp_edges 2 false = fin (2 * q) := by
  change DiGraphEnsemble.exp_edges Sparse.FitnessModel.p_ij θ 2 x y (fun _ _ => 1) false = _
  rw [DiGraphEnsemble.exp_edges_eq (q := fun _ _ => q) (fun i hi j hj _ => h i hi j hj)]
  congr 1
  simp [Finset.sum_range_succ, admissible]
  ring

theorem demo_num (jUndef : ℕ) (ne : Option ℝ) (s : S) (b : Addr) (hb : s.obj.param = some b)
    (hsl : s.obj.selfloops = false) (q : ℝ)
    (h : ∀ i < 2, ∀ j < 2, Sparse.FitnessModel.p_ij (s.mem.cell b 0) (s.mem.cell s.obj.prop_out i)
      (s.mem.cell s.obj.prop_in j) 1 = fin q) :
    (call jUndef (demo ne) (.numEdges true) s).1 = .num (fin (2 * q)) := by
  unfold call expected_num_edges
  dsimp only
  rw [hb]
  simp only [Bool.or_true, if_true]
  rw [hsl]
  have : (s.ens (demo ne) b).exp_edges (demo ne).n false = fin (2 * q) := demo_edges ne _ _ _ q h
  rw [this]
  rfl

/-- A parameter given as an array stays the array of the caller: writing `0` into it changes the
expected number of edges from `1` to `0`. -/
theorem C106_param_violated (jUndef : ℕ) (ne : Option ℝ) :
    (call jUndef (demo ne) (.numEdges true) (construct ones 0 0 (.array 1) false)).1 = .num (fin 1) ∧
      (call jUndef (demo ne) (.numEdges true)
        ((construct ones 0 0 (.array 1) false).put 1 (fun _ => 0))).1 = .num (fin 0) := by
  constructor
  · have := demo_num jUndef ne (construct ones 0 0 (.array 1) false) 1 rfl rfl (1 / 2)
      (fun i _ j _ => demo_half)
    rw [this]
    norm_num
  · have := demo_num jUndef ne ((construct ones 0 0 (.array 1) false).put 1 (fun _ => 0)) 1 rfl rfl 0
      (fun i _ j _ => by
        have h0 : ((construct ones 0 0 (.array 1) false).put 1 (fun _ => 0)).mem.cell 1 0 = 0 :=
          congr_fun (put_self _ _ _) 0
        rw [h0]
        simp [Sparse.FitnessModel.p_ij, zero_def, isZero])
    rw [this]
    norm_num

/-- A number given as parameter is copied: the same calls with the number `1` are not affected by
anything the caller writes into arrays 0 or 1 other than the properties. -/
theorem C106_param_number (jUndef : ℕ) (ne : Option ℝ) (w : ℕ → XR) :
    (call jUndef (demo ne) (.numEdges true)
        ((construct ones 0 0 (.number 1) false).put 1 w)).1 = .num (fin 1) := by
  have h := demo_num jUndef ne ((construct ones 0 0 (.number 1) false).put 1 w) 2 rfl rfl (1 / 2)
    (fun i _ j _ => by
      have e2 : ((construct ones 0 0 (.number 1) false).put 1 w).mem.cell 2 = fun _ => 1 :=
        (put_cell (by decide) w).trans (Mem.alloc_self ones _)
      have e0 : ((construct ones 0 0 (.number 1) false).put 1 w).mem.cell 0 = fun _ => 1 :=
        (put_cell (by decide) w).trans ((ones.alloc_ext _).2 0 (by decide))
      have p1 : ((construct ones 0 0 (.number 1) false).put 1 w).obj.prop_out = 0 := rfl
      have p2 : ((construct ones 0 0 (.number 1) false).put 1 w).obj.prop_in = 0 := rfl
      rw [p1, p2, e2, e0]
      exact demo_half)
  rw [h]
  norm_num

/-- The property arrays stay the arrays of the caller. -/
theorem C106_property_violated (jUndef : ℕ) (ne : Option ℝ) :
    (call jUndef (demo ne) (.numEdges true) (construct ones 0 0 (.number 1) false)).1
        = .num (fin 1) ∧
      (call jUndef (demo ne) (.numEdges true)
        ((construct ones 0 0 (.number 1) false).put 0 (fun _ => 0))).1 = .num (fin 0) := by
  constructor
  · have h := demo_num jUndef ne (construct ones 0 0 (.number 1) false) 2 rfl rfl (1 / 2)
      (fun i _ j _ => by
        have e2 : (construct ones 0 0 (.number 1) false).mem.cell 2 = fun _ => 1 :=
          Mem.alloc_self ones _
        have e0 : (construct ones 0 0 (.number 1) false).mem.cell 0 = fun _ => 1 :=
          (ones.alloc_ext _).2 0 (by decide)
        have p1 : (construct ones 0 0 (.number 1) false).obj.prop_out = 0 := rfl
        have p2 : (construct ones 0 0 (.number 1) false).obj.prop_in = 0 := rfl
        rw [p1, p2, e2, e0]
        exact demo_half)
    rw [h]
    norm_num
  · have h := demo_num jUndef ne ((construct ones 0 0 (.number 1) false).put 0 (fun _ => 0)) 2 rfl
      rfl 0 (fun i _ j _ => by
        have e0 : ((construct ones 0 0 (.number 1) false).put 0 (fun _ => 0)).mem.cell 0 =
          fun _ => 0 := put_self _ _ _
        have p1 : ((construct ones 0 0 (.number 1) false).put 0 (fun _ => 0)).obj.prop_out = 0 := rfl
        have p2 : ((construct ones 0 0 (.number 1) false).put 0 (fun _ => 0)).obj.prop_in = 0 := rfl
        rw [p1, p2, e0]
        simp [Sparse.FitnessModel.p_ij, zero_def, isZero])
    rw [h]
    norm_num

/-- The starting point handed to `fit` becomes the parameter array itself when the solver makes no
iteration, and only then. -/
theorem C106_start_computed (jUndef : ℕ) (c : Cls) (a : Addr) (len : ℕ) (i num : Bool)
    (method : Fit.Method) (o : Fit.Opts) (s : S) (hs : s.Valid) (ha : a < s.mem.next)
    (sol : Solver.Solution)
    (h : Fit.fitSingle (s.func c) c.num_edges ((Start.array a len i num).read s.mem) method o
      = .ok sol) :
    ((call jUndef c (.fit (.array a len i num) method o) s).2.obj.param = some a ↔ sol.n_iter = 0) ∧
      (call jUndef c (.fit (.array a len i num) method o) s).2.view.param = some sol.x := by
  constructor
  · unfold call fit
    dsimp only
    rw [h]
    dsimp only [Start.kept]
    by_cases h0 : sol.n_iter = 0
    · simp [h0]
    · simp only [h0, if_false, iff_false]
      exact fun e => (Nat.ne_of_gt ha) (Option.some.inj e)
  · have hp := post_fit (x := s.mem.cell s.obj.prop_out) (y := s.mem.cell s.obj.prop_in) c jUndef s hs
      ⟨rfl, rfl⟩ (.array a len i num) method o (fun b hb => by cases hb; exact ha)
    have := congr_arg (fun q => q.2.param) hp.eq
    dsimp only at this
    rw [← this]
    unfold vcall
    have hf : Fit.fitSingle (Fit.exp_edges_f_jac (fun d i j => c.p_jac_ij d
        (s.mem.cell s.obj.prop_out i) (s.mem.cell s.obj.prop_in j) (c.prop_dyad i j)) c.n
        s.view.selfloops) c.num_edges ((Start.array a len i num).read s.mem) method o = .ok sol := h
    dsimp only
    rw [hf]
    rfl

/-- The default options of `fit`. -/
noncomputable def demoOpts : Fit.Opts := ⟨1e-24, 1e-9, 100⟩

/-- `fit(x0=a)` when the array `a` already holds the solution: one expected edge as asked, and
after `a[0] = 0` none. -/
theorem C106_start_violated (jUndef : ℕ) :
    let s := (call jUndef (demo (some 1)) (.fit (.array 1 1 false true) .density demoOpts)
      (construct ones 0 0 .none false)).2
    s.obj.param = some 1 ∧
      (call jUndef (demo (some 1)) (.numEdges true) s).1 = .num (fin 1) ∧
      (call jUndef (demo (some 1)) (.numEdges true) (s.put 1 (fun _ => 0))).1 = .num (fin 0) := by
  have hjac : Sparse.FitnessModel.p_jac_ij 1 1 1 1 = (fin (1 / 2), fin (1 / 4)) := by
    have h1 : (1 : XR) = fin 1 := rfl
    simp [Sparse.FitnessModel.p_jac_ij, h1, isZero, isInf]
    norm_num
    exact ⟨fin_div_fin _ _ (by norm_num), fin_div_fin _ _ (by norm_num)⟩
  have hfun : (construct ones 0 0 .none false).func (demo (some 1)) 1 = (fin 1, fin (1 / 2)) := by
    unfold S.func
    have : (1 : XR) = fin 1 := rfl
    rw [this, Fit.exp_edges_f_jac_eq (P := fun _ _ => 1 / 2) (P' := fun _ _ => 1 / 4)
      (fun i j => hjac)]
    unfold total
    rw [sum_pairs, sum_pairs]
    simp [demo, construct, Finset.sum_range_succ, admissible]
    norm_num
  have hsolve : ∃ sol, Solver.solve (Fit.cfg ((construct ones 0 0 .none false).func (demo (some 1)))
      1 demoOpts) 1 = .ok sol ∧ sol.n_iter = 0 := by
    unfold Solver.solve
    have hn : (Solver.init (Fit.cfg ((construct ones 0 0 .none false).func (demo (some 1)))
      1 demoOpts) 1).norm = fin 0 := by
      simp only [Solver.init, Fit.cfg, hfun]
      simp [XR.abs]
    have hg : (ltb (Fit.cfg ((construct ones 0 0 .none false).func (demo (some 1)))
        1 demoOpts).x_u 1 || ltb 1 (Fit.cfg ((construct ones 0 0 .none false).func (demo (some 1)))
        1 demoOpts).x_l) = false := by
      have h1 : (1 : XR) = fin 1 := rfl
      simp [Fit.cfg, h1, ltb]
    have ht : ltb (fin 0) (fin (Fit.cfg ((construct ones 0 0 .none false).func (demo (some 1)))
        1 demoOpts).atol) = true := by
      simp only [Fit.cfg, demoOpts, ltb]
      norm_num
    simp only [hg, hn, ht, Bool.false_eq_true, if_false, if_true]
    exact ⟨_, rfl, rfl⟩
  obtain ⟨sol, hsol, hz⟩ := hsolve
  have hfit : Fit.fitSingle ((construct ones 0 0 .none false).func (demo (some 1))) (some 1)
      ((Start.array 1 1 false true).read (construct ones 0 0 .none false).mem) .density demoOpts
      = .ok sol := by
    have hr : (Start.array 1 1 false true).read (construct ones 0 0 .none false).mem =
      .array [1] false true := rfl
    rw [hr]
    have hneg : Fit.anyNeg [(1 : XR)] = false := by
      have h1 : (1 : XR) = fin 1 := rfl
      simp [Fit.anyNeg, h1, zero_def, ltb]
    unfold Fit.fitSingle
    simp only [Fit.X0.single, hneg, Bool.not_true, Bool.false_eq_true, if_false]
    rw [hsol]
    rfl
  have hstate : (call jUndef (demo (some 1)) (.fit (.array 1 1 false true) .density demoOpts)
      (construct ones 0 0 .none false)).2 = construct ones 0 0 (.array 1) false := by
    unfold call fit
    have hne : (demo (some 1)).num_edges = some 1 := rfl
    dsimp only
    rw [hne, hfit]
    simp only [Start.kept, hz, if_true]
    rfl
  intro s
  have hs : s = construct ones 0 0 (.array 1) false := hstate
  rw [hs]
  exact ⟨rfl, (C106_param_violated jUndef _).1, (C106_param_violated jUndef _).2⟩

/-! ## Examples -/

/-- Two ensembles sharing the property array, the first fitted from an array of the caller, the
second using a result of the first as the property that is averaged: the hypotheses of
`C106_unchanged` and `C106_values` hold. -/
example (jUndef : ℕ) :
    let σ : Sys Bool := ⟨ones, fun b => (construct ones 0 0 (.array 1) b).obj⟩
    σ.Valid ∧ σ.Legal jUndef (fun _ => demo (some 1))
      [(true, .degree false), (false, .avNnProp 2 2 .out none false),
        (true, .fit (.array 1 1 false true) .density demoOpts)] := by
  intro σ
  have hv : σ.Valid := fun b =>
    (C106_construct ones 0 0 (.array 1) b (by decide) (by decide) (by rintro a ⟨⟩; decide)).1
  have l0 : ∀ a, (Call.degree false).Uses a → a < σ.mem.next := by rintro a ⟨⟩
  obtain ⟨v1, x1, -⟩ := sys_step (jUndef := jUndef) (c := fun _ => demo (some 1)) (i := true) hv l0
  have n1 : (σ.call jUndef (fun _ => demo (some 1)) true (.degree false)).2.mem.next = 5 := rfl
  have l1 : ∀ a, (Call.avNnProp 2 2 .out none false).Uses a →
      a < (σ.call jUndef (fun _ => demo (some 1)) true (.degree false)).2.mem.next := by
    rintro a rfl
    rw [n1]
    decide
  obtain ⟨v2, x2, -⟩ := sys_step (c := fun _ => demo (some 1)) (i := false) v1 l1
  refine ⟨hv, l0, l1, ?_, trivial⟩
  rintro a rfl
  refine lt_of_lt_of_le ?_ x2.1
  rw [n1]
  decide

/-- Hypotheses of `C106_private_partial`: array 1 when the parameter is given as a number. -/
example : (1 : Addr) < (construct ones 0 0 (.number 1) false).mem.next ∧
    ¬ (construct ones 0 0 (.number 1) false).obj.Owns 1 := by
  refine ⟨by decide, ?_⟩
  rintro (h | h | h | h | h | h | ⟨i, j, h⟩)
  · cases h
  · cases h
  · have : (2 : ℕ) = 1 := Option.some.inj h
    omega
  all_goals cases h

end Alias

end Verif
