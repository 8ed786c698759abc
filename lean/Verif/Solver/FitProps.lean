import Verif.Solver.FitLemmas

/-!
# C33, C34, C35, C54: the density fit
-/

namespace Verif

open XR Spec
open scoped ENNReal NNReal

noncomputable section

namespace Solver

theorem run_head {c : Cfg} {x0 : XR} {r : Solution} (h : solve c x0 = .ok r) :
    ∃ l, r.x_seq = x0 :: l := by
  rcases (solve_ok h).2 with ⟨-, rfl⟩ | ⟨-, s1, s2, h1, h2, rfl⟩
  · exact ⟨[], rfl⟩
  · refine loop_inv c (P := fun s => ∃ l, s.x_seq = x0 :: l) ?_ _ _ _ ?_ h2
    · rintro s s' ⟨l, hl⟩ - hst
      exact ⟨l ++ [s'.x], by rw [(step_seq hst).1, hl]; rfl⟩
    · exact ⟨[], by rw [(bracketInit_keeps h1).2.2.2.2.2.1]; rfl⟩

end Solver

namespace Fit

/-- The parameter `d` reproduces the number of edges `m`. -/
def Fitter.Reproduces (F : Fitter) (n : ℕ) (selfloops : Bool) (m : ℝ) (d : ℝ≥0) : Prop :=
  (F.ens d).exp_edges n selfloops = fin m

theorem reproduces_iff {F : Fitter} (hF : IsFitter F) {n : ℕ} {s : Bool} {m : ℝ} {d : ℝ≥0} :
    F.Reproduces n s m d ↔ F.obj hF n s d = m := by
  unfold Fitter.Reproduces
  rw [Fitter.exp_edges hF]
  simp

/-- `func` is an objective of the model: on finite non-negative parameters it returns expected
number of edges and derivative of the model.  It is either `density_fit_fun` (`agree_self`) or,
for a label of a multi-layer model, `density_fit_layer` (`agree_layer_fit`,
`agree_layer_inv`). -/
def Fitter.Objective (F : Fitter) (n : ℕ) (selfloops : Bool) (func : XR → XR × XR) : Prop :=
  ∀ d : ℝ≥0, func (fin d) = F.func n selfloops (fin d)

theorem agree_self (F : Fitter) (n : ℕ) (s : Bool) : F.Objective n s (F.func n s) := fun _ => rfl

theorem agree_layer_fit {a b : List (ℕ × ℝ≥0)} (ha : RowSorted a) (hb : RowSorted b) {n : ℕ}
    (han : ∀ e ∈ a, e.1 < n) (hbn : ∀ e ∈ b, e.1 < n) (w : ℕ → ℕ → XR) (s : Bool) :
    (denseFit (entry a) (entry b) w).Objective n s
      (exp_edges_f_jac_layer MultiFitnessModel.p_jac_ijk (rowN a) (rowN b) s) :=
  layer_fit ha hb han hbn w s

theorem agree_layer_inv {a b : List (ℕ × ℝ≥0)} (ha : RowSorted a) (hb : RowSorted b) {n : ℕ}
    (han : ∀ e ∈ a, e.1 < n) (hbn : ∀ e ∈ b, e.1 < n) (w : ℕ → ℕ → XR) (s : Bool) :
    (denseInv (entry a) (entry b) w).Objective n s
      (exp_edges_f_jac_layer MultiInvariantModel.p_jac_ijk (rowN a) (rowN b) s) :=
  layer_inv ha hb han hbn w s

theorem Fitter.Objective.rep {F : Fitter} {hF : IsFitter F} {n : ℕ} {s : Bool}
    {func : XR → XR × XR} (h : F.Objective n s func) :
    Solver.Rep func (F.obj hF n s) (F.objDer hF n s) := fun d hd => by
  have := h ⟨d, hd⟩
  exact this.trans (Fitter.rep hF n s d hd)

/-- Facts about every run of the solver on the objective of a library model from a point at or
below a solution. -/
theorem fit_run {F : Fitter} (hF : IsFitter F) {n : ℕ} {s : Bool} {m : ℝ} {o : Opts}
    {func : XR → XR × XR} (hf : F.Objective n s func)
    (hat : 0 < o.atol) (hrt : 0 ≤ o.rtol) {root x0 : ℝ≥0} (hroot : F.Reproduces n s m root)
    (hx0 : x0 ≤ root) :
    ∃ sol ds d, Solver.solve (cfg func m o) (fin x0) = .ok sol ∧
      Solver.LeftRun (F.obj hF n s) (F.objDer hF n s) m o sol [] ds d ∧
      ∀ e ∈ ds ++ [d], e ≤ root := by
  rw [reproduces_iff hF] at hroot
  have hO := Fitter.isObj hF n s
  have hm : 0 ≤ m := by rw [← hroot, ← hO.zero]; exact hO.mono _ _ le_rfl root.2
  obtain ⟨sol, ds, d, h1, h2⟩ := Solver.solve_left hO hf.rep hat hrt hm x0.2
    (by rw [← hroot]; exact hO.mono _ _ x0.2 hx0)
  refine ⟨sol, ds, d, h1, h2, ?_⟩
  by_cases hact : ∃ e ∈ Law.pairs n s, F.linkable e.1 e.2
  · intro e he
    by_contra hcon
    have := total_strict (fun e _ => (F.pairLink hF e).link) hact root.2 (not_le.mp hcon)
    have h3 := (h2.below e he).2
    change F.obj hF n s root < F.obj hF n s e at this
    linarith
  · -- no pair can be linked: the objective vanishes and the run stops at once
    push Not at hact
    have hz : ∀ t, 0 ≤ t → F.obj hF n s t = 0 := fun t ht =>
      Finset.sum_eq_zero (fun e he => (F.pairLink hF e).link.dead (hact e he) t ht)
    have hd0 : F.objDer hF n s 0 = 0 := by
      by_contra hne
      have h5 := hO.pos
      have hzero : HasDerivAt (F.obj hF n s) (F.objDer hF n s 0) 0 := by
        have := HasDerivAt.fun_sum (u := Law.pairs n s) (A := F.val hF)
          (A' := fun e => F.der hF e 0) (x := (0 : ℝ))
          (fun e _ => (F.pairLink hF e).link.deriv 0 le_rfl)
        exact this
      have hw : HasDerivWithinAt (F.obj hF n s) 0 (Set.Ici 0) 0 :=
        (hasDerivWithinAt_const (0 : ℝ) (Set.Ici 0) (0 : ℝ)).congr (fun t ht => hz t ht)
          (hz 0 le_rfl)
      have := (uniqueDiffWithinAt_Ici (0 : ℝ)).eq_deriv _ hzero.hasDerivWithinAt hw
      exact hne this
    have hp := h2.progress ⟨root, root.2, hroot⟩
    rw [hd0, zero_mul] at hp
    have htol : 0 < o.atol + o.rtol * m := by have := mul_nonneg hrt hm; linarith
    have hlen : ds = [] := by
      rw [← List.length_eq_zero_iff]
      by_contra hne
      have : 0 < ((ds.length : ℕ) : ℝ) := by exact_mod_cast Nat.pos_of_ne_zero hne
      have := mul_pos this htol
      linarith
    obtain ⟨l, hl⟩ := Solver.run_head h1
    rw [h2.seq, hlen] at hl
    simp only [List.nil_append, List.map_cons, List.map_nil, List.cons.injEq, fin_inj] at hl
    intro e he
    rw [hlen] at he
    simp only [List.nil_append, List.mem_singleton] at he
    rw [he, hl.1]
    exact hx0

theorem nn_list {l : List ℝ} (h : ∀ e ∈ l, 0 ≤ e) :
    ∃ l' : List ℝ≥0, l = l'.map (fun e : ℝ≥0 => (e : ℝ)) := by
  induction l with
  | nil => exact ⟨[], rfl⟩
  | cons a l ih =>
    obtain ⟨l', hl'⟩ := ih (fun e he => h e (by simp [he]))
    exact ⟨⟨a, h a (by simp)⟩ :: l', congrArg (List.cons a) hl'⟩

/-- **C33**: for every fitted model (or label of a multi-layer model), every attained number of edges `m` (reproduced exactly by
the parameter `root`) and every starting point up to `root` — in particular the default `0` —
the density fit raises no error, its iterates increase strictly and never exceed `root`, and
the expected number of edges at every iterate is at most `m`. -/
theorem C33 {F : Fitter} (hF : IsFitter F) {n : ℕ} {selfloops : Bool} {m : ℝ} {o : Opts}
    {func : XR → XR × XR} (hf : F.Objective n selfloops func)
    (hat : 0 < o.atol) (hrt : 0 ≤ o.rtol) {root x0 : ℝ≥0}
    (hroot : F.Reproduces n selfloops m root) (hx0 : x0 ≤ root) :
    ∃ sol, Solver.solve (cfg func m o) (fin x0) = .ok sol ∧
      ∃ ds : List ℝ≥0, sol.x_seq = ds.map (fun d : ℝ≥0 => fin d) ∧ ds.Pairwise (· < ·) ∧
        ∀ d ∈ ds, d ≤ root ∧ ∃ v, (F.ens d).exp_edges n selfloops = fin v ∧ v ≤ m := by
  obtain ⟨sol, ds, d, h1, h2, h3⟩ := fit_run hF hf hat hrt hroot hx0
  obtain ⟨l, hl⟩ := nn_list (fun e he => (h2.below e he).1)
  refine ⟨sol, h1, l, ?_, ?_, ?_⟩
  · rw [h2.seq, List.nil_append, hl, List.map_map]; rfl
  · have := h2.sorted
    rw [hl, List.pairwise_map] at this
    exact this
  · intro e he
    have hmem : (e : ℝ) ∈ ds ++ [d] := by
      rw [hl]; exact List.mem_map.mpr ⟨e, he, rfl⟩
    exact ⟨h3 e hmem, _, Fitter.exp_edges hF n selfloops e, (h2.below e hmem).2⟩

/-- **C33** for `FitnessModel.fit` and `ScaleInvariantModel.fit` with default `x0`. -/
theorem C33_fit {F : Fitter} (hF : IsFitter F) {n : ℕ} {selfloops : Bool} {m : ℝ} {o : Opts}
    (hat : 0 < o.atol) (hrt : 0 ≤ o.rtol) {root : ℝ≥0}
    (hroot : F.Reproduces n selfloops m root) :
    ∃ sol, fitSingle (F.func n selfloops) (some m) .none .density o = .ok sol ∧
      ∃ ds : List ℝ≥0, sol.x_seq = ds.map (fun d : ℝ≥0 => fin d) ∧ ds.Pairwise (· < ·) ∧
        ∀ d ∈ ds, d ≤ root ∧ ∃ v, (F.ens d).exp_edges n selfloops = fin v ∧ v ≤ m := by
  obtain ⟨sol, h1, h2⟩ := C33 hF (agree_self F n selfloops) hat hrt hroot (x0 := 0) zero_le
  refine ⟨sol, ?_, h2⟩
  have h1' : Solver.solve (cfg (F.func n selfloops) m o) 0 = .ok sol := h1
  have : anyNeg [(0 : XR)] = false := by simp [anyNeg, zero_def]
  simp [fitSingle, X0.single, this, h1', Except.mapError]

/-- **C33** for the multi-layer models with one shared parameter. -/
theorem C33_fit_multi {F : Fitter} (hF : IsFitter F) {n : ℕ} {selfloops : Bool} {m : ℝ}
    {o : Opts} (hat : 0 < o.atol) (hrt : 0 ≤ o.rtol) {root : ℝ≥0}
    (hroot : F.Reproduces n selfloops m root) {M : MultiModel}
    (hM : M.func = F.func n selfloops) (hp : M.per_label = false) (he : M.num_edges = some m) :
    ∃ sol, fitMulti M .none .density o = .ok ⟨List.replicate M.num_labels sol.x, [sol]⟩ ∧
      ∃ ds : List ℝ≥0, sol.x_seq = ds.map (fun d : ℝ≥0 => fin d) ∧ ds.Pairwise (· < ·) ∧
        ∀ d ∈ ds, d ≤ root ∧ ∃ v, (F.ens d).exp_edges n selfloops = fin v ∧ v ≤ m := by
  obtain ⟨sol, h1, h2⟩ := C33 hF (agree_self F n selfloops) hat hrt hroot (x0 := 0) zero_le
  refine ⟨sol, ?_, h2⟩
  have h1' : Solver.solve (cfg (F.func n selfloops) m o) 0 = .ok sol := h1
  have hneg : anyNeg (List.replicate M.num_labels (0 : XR)) = false := by
    simp [anyNeg, zero_def]
  have hget : (List.replicate M.num_labels (0 : XR)).getD 0 0 = 0 := by
    cases M.num_labels <;> simp [List.replicate]
  simp only [fitMulti, X0.multi, List.length_replicate, ne_eq, not_true_eq_false, if_false,
    Bool.not_true, Bool.false_eq_true, hneg, hp, he, hM, hget, h1', Except.mapError]

/-! ### C34 -/

open Classical in
/-- Number of admissible pairs whose two properties do not vanish. -/
def Fitter.numLinkable (F : Fitter) (n : ℕ) (selfloops : Bool) : ℕ :=
  ((Law.pairs n selfloops).filter (fun e => F.linkable e.1 e.2)).card

/-- **C34**, existence and uniqueness. -/
theorem C34_unique {F : Fitter} (hF : IsFitter F) {n : ℕ} {selfloops : Bool} {m : ℝ}
    (h0 : 0 < m) (hm : m < F.numLinkable n selfloops) :
    ∃! d : ℝ≥0, 0 < d ∧ F.Reproduces n selfloops m d := by
  obtain ⟨d, hd, he⟩ := total_exists (S := Law.pairs n selfloops) (P := F.val hF)
    (fun e _ => (F.pairLink hF e).link) h0 hm
  have hact : ∃ e ∈ Law.pairs n selfloops, F.linkable e.1 e.2 := by
    by_contra hcon
    push Not at hcon
    have : F.numLinkable n selfloops = 0 := by
      classical
      unfold Fitter.numLinkable
      rw [Finset.card_eq_zero, Finset.filter_eq_empty_iff]
      exact fun e he => hcon e he
    rw [this] at hm
    norm_num at hm
    linarith
  refine ⟨⟨d, hd.le⟩, ⟨hd, (reproduces_iff hF).mpr he⟩, ?_⟩
  rintro d' ⟨-, h'⟩
  rw [reproduces_iff hF] at h'
  have str := fun {x y : ℝ} (hx : 0 ≤ x) (hxy : x < y) =>
    total_strict (S := Law.pairs n selfloops) (P := F.val hF)
    (fun e _ => (F.pairLink hF e).link) hact hx hxy
  apply NNReal.eq
  rcases lt_trichotomy (d' : ℝ) d with h | h | h
  · have := str d'.2 h
    change F.obj hF n selfloops d' < _ at this
    linarith
  · exact h
  · have := str hd.le h
    change _ < F.obj hF n selfloops d' at this
    linarith

/-- **C34**, infeasible targets: no finite parameter reaches the number of linkable pairs. -/
theorem C34_none {F : Fitter} (hF : IsFitter F) {n : ℕ} {selfloops : Bool} {m : ℝ}
    (h0 : 0 < m) (hm : F.numLinkable n selfloops ≤ m) (d : ℝ≥0) :
    ¬ F.Reproduces n selfloops m d := by
  rw [reproduces_iff hF]
  by_cases hact : ∃ e ∈ Law.pairs n selfloops, F.linkable e.1 e.2
  · have := total_lt (S := Law.pairs n selfloops) (P := F.val hF)
      (fun e _ => (F.pairLink hF e).link) hact d.2
    change F.obj hF n selfloops d < (F.numLinkable n selfloops : ℝ) at this
    linarith
  · push Not at hact
    have : F.obj hF n selfloops d = 0 :=
      Finset.sum_eq_zero (fun e he => (F.pairLink hF e).link.dead (hact e he) d d.2)
    linarith

/-- Runs of the solver on a library objective from a finite start: no error, finite
non-negative iterates, and the residual of the report is the distance between expected and
required number of edges. -/
theorem fit_total {F : Fitter} (hF : IsFitter F) {n : ℕ} {s : Bool} {m : ℝ} {o : Opts}
    {func : XR → XR × XR} (hf : F.Objective n s func)
    (hat : 0 < o.atol) (hrt : 0 ≤ o.rtol) (hm : 0 ≤ m) (x0 : ℝ≥0) :
    ∃ sol, Solver.solve (cfg func m o) (fin x0) = .ok sol ∧
      (∀ x ∈ sol.x_seq, ∃ d : ℝ≥0, x = fin d) ∧
      (sol.converged = true ∨ sol.max_iter_reached = true ∨ sol.no_change_stop = true) ∧
      ∃ d : ℝ≥0, sol.x = fin d ∧ ∃ v, (F.ens d).exp_edges n s = fin v ∧
        (sol.converged = true ↔ |v - m| ≤ o.atol + o.rtol * m) := by
  have hO := Fitter.isObj hF n s
  have key : ∃ sol, Solver.solve (cfg func m o) (fin x0) = .ok sol ∧
      (∀ x ∈ sol.x_seq, ∃ d : ℝ≥0, x = fin d) ∧
      (sol.converged = true ∨ sol.max_iter_reached = true ∨ sol.no_change_stop = true) ∧
      ∃ d : ℝ≥0, sol.x = fin d := by
    rcases le_or_gt (F.obj hF n s x0) m with hle | hgt
    · obtain ⟨sol, ds, d, h1, h2⟩ := Solver.solve_left hO hf.rep hat hrt hm x0.2 hle
      refine ⟨sol, h1, ?_, h2.stop, ⟨d, (h2.below d (by simp)).1⟩, h2.x⟩
      intro x hx
      rw [h2.seq] at hx
      obtain ⟨e, he, rfl⟩ := List.mem_map.mp hx
      exact ⟨⟨e, (h2.below e (by simpa using he)).1⟩, rfl⟩
    · obtain ⟨sol, h1, h2⟩ := Solver.solve_right hO hf.rep hat hrt hm x0.2 hgt
      rcases h2 with ⟨h3, h4, h5⟩ | ⟨ds, d, h2⟩
      · refine ⟨sol, h1, ?_, h5, x0, h3⟩
        intro x hx
        rw [h4] at hx
        exact ⟨x0, by simpa using hx⟩
      · refine ⟨sol, h1, ?_, h2.stop, ⟨d, (h2.below d (by simp)).1⟩, h2.x⟩
        intro x hx
        rw [h2.seq] at hx
        obtain ⟨e, he, rfl⟩ := List.mem_map.mp hx
        rcases List.mem_append.mp he with he | he
        · exact ⟨x0, congrArg fin (List.mem_singleton.mp he)⟩
        · exact ⟨⟨e, (h2.below e he).1⟩, rfl⟩
  obtain ⟨sol, h1, h2, h3, d, h4⟩ := key
  refine ⟨sol, h1, h2, h3, d, h4, _, Fitter.exp_edges hF n s d, ?_⟩
  rw [(Solver.C32_report h1).1, h4]
  have e := hf.rep (hF := hF) d d.2
  simp only [Solver.residual, cfg, e, neg_fin, fin_add_fin, abs_fin, leb_fin,
    decide_eq_true_eq, ← sub_eq_add_neg]

/-- **C30** for the fits of the library: from every finite non-negative starting point and for
every non-negative number of edges (attainable or not) `fit` raises no error, all iterates are
finite and non-negative, and one of the flags is set (the last part of **C32**). -/
theorem C30_fit {F : Fitter} (hF : IsFitter F) {n : ℕ} {selfloops : Bool} {m : ℝ} {o : Opts}
    (hat : 0 < o.atol) (hrt : 0 ≤ o.rtol) (hm : 0 ≤ m) (x0 : ℝ≥0) :
    ∃ sol, fitSingle (F.func n selfloops) (some m) (.scalar (fin x0) false) .density o = .ok sol ∧
      (∀ x ∈ sol.x_seq, ∃ d : ℝ≥0, x = fin d) ∧
      (sol.converged = true ∨ sol.max_iter_reached = true ∨ sol.no_change_stop = true) := by
  obtain ⟨sol, h1, h2, h3, -⟩ := fit_total hF (agree_self F n selfloops) hat hrt hm x0
  refine ⟨sol, ?_, h2, h3⟩
  have : anyNeg [fin (x0 : ℝ)] = false := by simp [anyNeg, zero_def]
  simp [fitSingle, X0.single, this, h1, Except.mapError]

/-- **C34**, converged fits of the single-layer models: `fit` reproduces the number of edges
within the tolerances iff it reports convergence. -/
theorem C34_converged {F : Fitter} (hF : IsFitter F) {n : ℕ} {selfloops : Bool} {m : ℝ}
    {o : Opts} (hat : 0 < o.atol) (hrt : 0 ≤ o.rtol) (hm : 0 ≤ m) {x0 : X0}
    (hx0 : ∀ v ∈ x0.single.vals, ∃ r, v = fin r) {sol : Solver.Solution}
    (h : fitSingle (F.func n selfloops) (some m) x0 .density o = .ok sol) :
    ∃ d : ℝ≥0, sol.x = fin d ∧ ∃ v, (F.ens d).exp_edges n selfloops = fin v ∧
      (sol.converged = true ↔ |v - m| ≤ o.atol + o.rtol * m) := by
  unfold fitSingle at h
  simp only at h
  split at h
  · rename_i v hv
    obtain ⟨r, rfl⟩ := hx0 v (by rw [hv]; simp)
    split_ifs at h with h1 h2
    have hr : 0 ≤ r := by
      simp only [anyNeg, List.any_cons, List.any_nil, Bool.or_false, zero_def, ltb_fin',
        decide_eq_true_eq, not_lt] at h2
      exact h2
    obtain ⟨sol', h3, -, -, h4⟩ := fit_total hF (agree_self F n selfloops) hat hrt hm ⟨r, hr⟩
    have h3' : Solver.solve (cfg (F.func n selfloops) m o) (fin r) = .ok sol' := h3
    rw [h3'] at h
    simp only [Except.mapError, Except.ok.injEq] at h
    exact h ▸ h4
  · cases h

/-- **C34**, converged fits of the multi-layer models with one shared parameter. -/
theorem C34_converged_shared {F : Fitter} (hF : IsFitter F) {n : ℕ} {selfloops : Bool} {m : ℝ}
    {o : Opts} (hat : 0 < o.atol) (hrt : 0 ≤ o.rtol) (hm : 0 ≤ m) {M : MultiModel}
    (hM : M.func = F.func n selfloops) (hp : M.per_label = false) (he : M.num_edges = some m)
    (hL : M.num_labels ≠ 0) {x0 : X0} (hx0 : ∀ v ∈ (x0.multi M.num_labels).vals, ∃ r, v = fin r)
    {r : MultiFit} (h : fitMulti M x0 .density o = .ok r) :
    ∃ (sol : Solver.Solution) (d : ℝ≥0), r.outputs = [sol] ∧
      r.param = List.replicate M.num_labels (fin d) ∧
      ∃ v, (F.ens d).exp_edges n selfloops = fin v ∧
        (sol.converged = true ↔ |v - m| ≤ o.atol + o.rtol * m) := by
  unfold fitMulti at h
  simp only [hp, he, Bool.false_eq_true, if_false] at h
  split_ifs at h with h1 h2 h3
  set xs := (x0.multi M.num_labels).vals with hxs
  have hmem : xs.getD 0 0 ∈ xs := by
    have hlen : xs.length ≠ 0 := by omega
    cases hxc : xs with
    | nil => rw [hxc] at hlen; simp at hlen
    | cons a l => simp
  obtain ⟨r0, hr0⟩ := hx0 _ hmem
  have hr : 0 ≤ r0 := by
    by_contra hcon
    apply h3
    rw [anyNeg, List.any_eq_true]
    exact ⟨_, hmem, by rw [hr0]; simpa [zero_def] using hcon⟩
  obtain ⟨sol', h4, -, -, d, h5, h6⟩ := fit_total hF (agree_self F n selfloops) hat hrt hm ⟨r0, hr⟩
  have h4' : Solver.solve (cfg M.func m o) (xs.getD 0 0) = .ok sol' := by
    rw [hM, hr0]; exact h4
  rw [h4'] at h
  simp only [Except.mapError, Except.ok.injEq] at h
  subst h
  exact ⟨sol', d, rfl, by rw [h5], h6⟩

/-! ### C35 -/

theorem fitLabels_spec (m : MultiModel) (e : ℕ → ℝ) (x : Arr) (o : Opts) :
    ∀ (L : ℕ) (s0 : MultiFit) (r : MultiFit), s0.outputs.length = 0 →
      (List.range L).foldlM (fitLabel m e x o) s0 = .ok r →
      r.param.length = s0.param.length ∧ r.outputs.length = L ∧
      ∀ i < L, ∃ sol, Solver.solve (cfg (m.layer i) (e i) o) (x.vals.getD i 0) = .ok sol ∧
        r.outputs[i]? = some sol ∧ (i < s0.param.length →
          r.param[i]? = some (store x.isInt sol.x)) := by
  intro L
  induction L with
  | zero =>
    intro s0 r h0 h
    simp only [List.range_zero, List.foldlM_nil, pure, Except.pure, Except.ok.injEq] at h
    subst h
    exact ⟨rfl, h0, by omega⟩
  | succ L ih =>
    intro s0 r h0 h
    rw [List.range_succ, List.foldlM_append] at h
    simp only [bind, Except.bind] at h
    split at h
    · cases h
    rename_i r' hr'
    obtain ⟨i1, i2, i3⟩ := ih s0 r' h0 hr'
    simp only [List.foldlM_cons, List.foldlM_nil, bind, Except.bind, pure, Except.pure,
      fitLabel] at h
    cases hs : Solver.solve (cfg (m.layer L) (e L) o) (x.vals.getD L 0) with
    | error err => rw [hs] at h; simp [Except.mapError] at h
    | ok sol =>
      rw [hs] at h
      simp only [Except.mapError, Except.ok.injEq] at h
      subst h
      refine ⟨by simp [i1], by simp [i2], ?_⟩
      intro i hi
      rcases Nat.lt_succ_iff_lt_or_eq.mp hi with hi | rfl
      · obtain ⟨sol', j1, j2, j3⟩ := i3 i hi
        refine ⟨sol', j1, ?_, ?_⟩
        · simp only
          rw [List.getElem?_append_left (by omega)]; exact j2
        · intro hlt
          simp only
          rw [List.getElem?_set_ne (by omega)]; exact j3 hlt
      · refine ⟨sol, hs, ?_, ?_⟩
        · simp only
          rw [List.getElem?_append_right (by omega), i2]; simp
        · intro hlt
          simp only
          rw [List.getElem?_set_self (by omega)]

/-- A successful per-label fit is the collection of the label-wise solver runs. -/
theorem fitMulti_label {M : MultiModel} {x0 : X0} {o : Opts} {e : ℕ → ℝ} {r : MultiFit}
    (hp : M.per_label = true) (he : M.num_edges_label = some e)
    (h : fitMulti M x0 .density o = .ok r) {i : ℕ} (hi : i < M.num_labels) :
    ∃ sol, Solver.solve (cfg (M.layer i) (e i) o) ((x0.multi M.num_labels).vals.getD i 0)
        = .ok sol ∧
      r.outputs[i]? = some sol ∧
      r.param[i]? = some (store (x0.multi M.num_labels).isInt sol.x) := by
  unfold fitMulti at h
  simp only [hp, he, if_true] at h
  split_ifs at h with h1 h2 h3
  unfold fitLabels at h
  obtain ⟨-, -, hs⟩ := fitLabels_spec M e (x0.multi M.num_labels) o M.num_labels _ r rfl h
  obtain ⟨sol, j1, j2, j3⟩ := hs i hi
  refine ⟨sol, j1, j2, j3 ?_⟩
  simp only
  omega

/-- **C35**, independence: two per-label models that agree on the data of one label (the
label's objective, its number of edges and its starting value, stored with the same type)
obtain the same parameter and the same report for it, whatever the other labels are. -/
theorem C35_independent {M M' : MultiModel} {x0 x0' : X0} {o : Opts} {e e' : ℕ → ℝ}
    {r r' : MultiFit} {i : ℕ} (hi : i < M.num_labels) (hi' : i < M'.num_labels)
    (hp : M.per_label = true) (hp' : M'.per_label = true)
    (he : M.num_edges_label = some e) (he' : M'.num_edges_label = some e')
    (hlayer : M.layer i = M'.layer i) (hedges : e i = e' i)
    (hstart : (x0.multi M.num_labels).vals.getD i 0 = (x0'.multi M'.num_labels).vals.getD i 0)
    (hty : (x0.multi M.num_labels).isInt = (x0'.multi M'.num_labels).isInt)
    (h : fitMulti M x0 .density o = .ok r) (h' : fitMulti M' x0' .density o = .ok r') :
    r.param[i]? = r'.param[i]? ∧ r.outputs[i]? = r'.outputs[i]? ∧ (r.param[i]?).isSome := by
  obtain ⟨sol, h1, h2, h3⟩ := fitMulti_label hp he h hi
  obtain ⟨sol', h1', h2', h3'⟩ := fitMulti_label hp' he' h' hi'
  rw [hlayer, hedges, hstart, h1'] at h1
  simp only [Except.ok.injEq] at h1
  subst h1
  refine ⟨by rw [h3, h3', hty], by rw [h2, h2'], by rw [h3]; rfl⟩

/-- **C35**, one parameter for all labels: with `per_label = False` the labels share one
parameter, found from the total number of edges and from the first starting value. -/
theorem C35_shared {M : MultiModel} {x0 : X0} {o : Opts} {r : MultiFit}
    (hp : M.per_label = false) (h : fitMulti M x0 .density o = .ok r) :
    ∃ m sol, M.num_edges = some m ∧
      Solver.solve (cfg M.func m o) ((x0.multi M.num_labels).vals.getD 0 0) = .ok sol ∧
      r.param.length = M.num_labels ∧ (∀ v ∈ r.param, v = sol.x) ∧ r.outputs = [sol] := by
  unfold fitMulti at h
  simp only [hp, Bool.false_eq_true, if_false] at h
  split_ifs at h with h1 h2 h3
  split at h
  · cases h
  · rename_i m hm
    cases hs : Solver.solve (cfg M.func m o) ((x0.multi M.num_labels).vals.getD 0 0) with
    | error err => rw [hs] at h; simp [Except.mapError] at h
    | ok sol =>
      rw [hs] at h
      simp only [Except.mapError, Except.ok.injEq] at h
      subst h
      exact ⟨m, sol, hm, hs.symm ▸ rfl, by simp, fun v hv => (List.mem_replicate.mp hv).2, rfl⟩

/-- **C35** and **C33**, each label is fitted separately: in a per-label fit from the default
start, for every label with an attained number of edges the iterates increase strictly to the
solution of that label's own single-layer model, without ever overshooting. -/
theorem C35_label {M : MultiModel} {o : Opts} {e : ℕ → ℝ} {r : MultiFit}
    (hat : 0 < o.atol) (hrt : 0 ≤ o.rtol)
    (hp : M.per_label = true) (he : M.num_edges_label = some e)
    (h : fitMulti M .none .density o = .ok r) {i : ℕ} (hi : i < M.num_labels)
    {F : Fitter} (hF : IsFitter F) {n : ℕ} {selfloops : Bool}
    (hf : F.Objective n selfloops (M.layer i)) {root : ℝ≥0}
    (hroot : F.Reproduces n selfloops (e i) root) :
    ∃ sol, r.outputs[i]? = some sol ∧ r.param[i]? = some sol.x ∧
      ∃ ds : List ℝ≥0, sol.x_seq = ds.map (fun d : ℝ≥0 => fin d) ∧ ds.Pairwise (· < ·) ∧
        ∀ d ∈ ds, d ≤ root ∧ ∃ v, (F.ens d).exp_edges n selfloops = fin v ∧ v ≤ e i := by
  obtain ⟨sol, h1, h2, h3⟩ := fitMulti_label hp he h hi
  obtain ⟨sol', h4, h5⟩ := C33 hF hf hat hrt hroot (x0 := 0) zero_le
  have h0 : ((X0.none).multi M.num_labels).vals.getD i 0 = fin (((0 : ℝ≥0)) : ℝ) := by
    simp [X0.multi, zero_def, hi]
  rw [h0, h4] at h1
  simp only [Except.ok.injEq] at h1
  subst h1
  exact ⟨sol', h2, h3, h5⟩

/-- **C34**, converged fits with one parameter per label, partial: every label that reports
convergence has an expected number of edges within the tolerance.

Missing: starting values stored with an integer type, for which it is false
(`C34_integer_start_violated`). -/
theorem C34_converged_label_partial {M : MultiModel} {x0 : X0} {o : Opts} {e : ℕ → ℝ}
    {r : MultiFit} (hat : 0 < o.atol) (hrt : 0 ≤ o.rtol)
    (hp : M.per_label = true) (he : M.num_edges_label = some e)
    (hx0 : ∀ v ∈ (x0.multi M.num_labels).vals, ∃ r, v = fin r)
    (hty : (x0.multi M.num_labels).isInt = false)
    (h : fitMulti M x0 .density o = .ok r) {i : ℕ} (hi : i < M.num_labels)
    (hm : 0 ≤ e i) {F : Fitter} (hF : IsFitter F) {n : ℕ} {selfloops : Bool}
    (hf : F.Objective n selfloops (M.layer i)) :
    ∃ (sol : Solver.Solution) (d : ℝ≥0), r.outputs[i]? = some sol ∧ r.param[i]? = some (fin d) ∧
      ∃ v, (F.ens d).exp_edges n selfloops = fin v ∧
        (sol.converged = true ↔ |v - e i| ≤ o.atol + o.rtol * e i) := by
  obtain ⟨sol, h1, h2, h3⟩ := fitMulti_label hp he h hi
  have hmem : (x0.multi M.num_labels).vals.getD i 0 ∈ (x0.multi M.num_labels).vals ∧
      anyNeg (x0.multi M.num_labels).vals = false := by
    unfold fitMulti at h
    simp only at h
    split_ifs at h with g1 g2 g3
    refine ⟨?_, by simpa using g3⟩
    have hlt : i < (x0.multi M.num_labels).vals.length := by omega
    rw [List.getD_eq_getElem?_getD, List.getElem?_eq_getElem hlt]
    exact List.getElem_mem hlt
  obtain ⟨r0, hr0⟩ := hx0 _ hmem.1
  have hr : 0 ≤ r0 := by
    by_contra hcon
    have h4 := hmem.2
    rw [anyNeg, List.any_eq_false] at h4
    exact h4 _ hmem.1 (by rw [hr0]; simpa [zero_def] using hcon)
  obtain ⟨sol', h4, -, -, d, h5, h6⟩ := fit_total hF hf hat hrt hm ⟨r0, hr⟩
  have h4' : Solver.solve (cfg (M.layer i) (e i) o) ((x0.multi M.num_labels).vals.getD i 0)
      = .ok sol' := by rw [hr0]; exact h4
  rw [h4', Except.ok.injEq] at h1
  subst h1
  exact ⟨sol', d, h2, by rw [h3, hty, h5]; rfl, h6⟩

/-! ### C54 -/

/-- **C54**: for an attained number of edges and a start at or below the solution, the fit stops
because it converged or because `maxiter` iterations were done, never because the iterates stall;
and it converges whenever `maxiter * (atol + rtol * m)` exceeds the solution times the slope of
the expected number of edges at zero. -/
theorem C54 {F : Fitter} (hF : IsFitter F) {n : ℕ} {selfloops : Bool} {m : ℝ} {o : Opts}
    {func : XR → XR × XR} (hf : F.Objective n selfloops func)
    (hat : 0 < o.atol) (hrt : 0 ≤ o.rtol) {root x0 : ℝ≥0}
    (hroot : F.Reproduces n selfloops m root) (hx0 : x0 ≤ root) :
    ∃ sol slope, Solver.solve (cfg func m o) (fin x0) = .ok sol ∧
      (F.func n selfloops (fin 0)).2 = fin slope ∧
      (sol.converged = true ∨ sol.n_iter = o.maxiter) ∧
      sol.n_iter * (o.atol + o.rtol * m) ≤ slope * root ∧
      (slope * root < o.maxiter * (o.atol + o.rtol * m) → sol.converged = true) := by
  obtain ⟨sol, ds, d, h1, h2, h3⟩ := fit_run hF hf hat hrt hroot hx0
  have hrep := Solver.C32_report h1
  have hlen : sol.n_iter = ds.length := by
    have := hrep.2.2.1
    rw [h2.seq] at this
    simp only [List.nil_append, List.length_map, List.length_append, List.length_singleton] at this
    omega
  rw [reproduces_iff hF] at hroot
  have hprog := h2.progress ⟨root, root.2, hroot⟩
  have hsl : 0 ≤ F.objDer hF n selfloops 0 := (Fitter.isObj hF n selfloops).nonneg 0 le_rfl
  have hb : sol.n_iter * (o.atol + o.rtol * m) ≤ F.objDer hF n selfloops 0 * root := by
    rw [hlen]
    exact hprog.trans (mul_le_mul_of_nonneg_left (h3 d (by simp)) hsl)
  have hstop : sol.converged = true ∨ sol.n_iter = o.maxiter := by
    rcases h2.done ⟨root, root.2, hroot⟩ rfl with h | h
    · exact .inl h
    · exact .inr (hrep.2.2.2.2.1.mp h)
  refine ⟨sol, F.objDer hF n selfloops 0, h1, ?_, hstop, hb, ?_⟩
  · rw [Fitter.rep hF n selfloops 0 le_rfl]
  · intro hlt
    rcases hstop with h | h
    · exact h
    · rw [h] at hb
      linarith

/-- **C54**, fits with one parameter per label: if every label's objective belongs to a model of
the library and its number of edges is not negative, the fit from the default start raises no
error. -/
theorem C54_label {M : MultiModel} {o : Opts} {e : ℕ → ℝ} (hat : 0 < o.atol) (hrt : 0 ≤ o.rtol)
    (hp : M.per_label = true) (he : M.num_edges_label = some e)
    (hm : ∀ i < M.num_labels, 0 ≤ e i)
    (hlayer : ∀ i < M.num_labels, ∃ F n selfloops, IsFitter F ∧
      F.Objective n selfloops (M.layer i)) :
    ∃ r, fitMulti M .none .density o = .ok r := by
  have hsolve : ∀ i < M.num_labels, ∃ sol, Solver.solve (cfg (M.layer i) (e i) o)
      (((X0.none).multi M.num_labels).vals.getD i 0) = .ok sol := by
    intro i hi
    obtain ⟨F, n, s, hF, hf⟩ := hlayer i hi
    obtain ⟨sol, h1, -⟩ := fit_total hF hf hat hrt (hm i hi) 0
    refine ⟨sol, ?_⟩
    rw [← h1]
    congr 1
    simp [X0.multi, zero_def, hi]
  have hfold : ∀ L ≤ M.num_labels, ∀ s0, ∃ r,
      (List.range L).foldlM (fitLabel M e ((X0.none).multi M.num_labels) o) s0 = .ok r := by
    intro L
    induction L with
    | zero => exact fun _ s0 => ⟨s0, rfl⟩
    | succ L ih =>
      intro hL s0
      obtain ⟨r, hr⟩ := ih (by omega) s0
      obtain ⟨sol, hs⟩ := hsolve L (by omega)
      refine ⟨⟨r.param.set L (store ((X0.none).multi M.num_labels).isInt sol.x),
        r.outputs ++ [sol]⟩, ?_⟩
      rw [List.range_succ, List.foldlM_append, hr]
      simp only [bind, Except.bind, List.foldlM_cons, List.foldlM_nil, fitLabel, hs,
        Except.mapError, pure, Except.pure]
  obtain ⟨r, hr⟩ := hfold M.num_labels le_rfl ⟨((X0.none).multi M.num_labels).vals, []⟩
  refine ⟨r, ?_⟩
  unfold fitMulti
  have hneg : anyNeg ((X0.none).multi M.num_labels).vals = false := by
    simp [anyNeg, X0.multi, zero_def]
  have hlen : ((X0.none).multi M.num_labels).vals.length = M.num_labels := by simp [X0.multi]
  have hnum : ((X0.none).multi M.num_labels).numeric = true := rfl
  simp only [hlen, hneg, hnum, hp, he, ne_eq, not_true_eq_false, if_false, if_true, Bool.not_true,
    Bool.false_eq_true]
  exact hr

/-- The slope at zero of the dense fitness model is the sum of the products of the properties
over the admissible pairs. -/
theorem slope_denseFit (x y : ℕ → ℝ≥0) (w : ℕ → ℕ → XR) (n : ℕ) (selfloops : Bool) :
    ((denseFit x y w).func n selfloops (fin 0)).2 =
      fin (∑ e ∈ Law.pairs n selfloops, (x e.1 : ℝ) * y e.2) := by
  unfold Fitter.func denseFit
  simp only
  rw [exp_edges_f_jac_eq (P := fun _ _ => 0) (P' := fun e _ => (x e.1 : ℝ) * y e.2)]
  · rfl
  · intro i j
    simp only [Dense.FitnessModel.p_jac_ij, arrN, isZero_fin, decide_true, if_true]
    by_cases h : (x i : ℝ) = 0 ∨ (y j : ℝ) = 0
    · have : (decide ((x i : ℝ) = 0) || decide ((y j : ℝ) = 0)) = true := by simpa using h
      simp only [this, if_true]
      rcases h with h | h <;> simp [h, zero_def]
    · have : (decide ((x i : ℝ) = 0) || decide ((y j : ℝ) = 0)) = false := by
        simpa [not_or] using h
      simp only [this, Bool.false_eq_true, if_false]
      simp [zero_def]

/-! ### Examples and violation -/

/-- Two vertices, all properties one: expected number of edges `2 d / (1 + d)`. -/
def exF : Fitter := denseFit (fun _ => 1) (fun _ => 1) (fun _ _ => 1)

theorem exF_func {d : ℝ} (hd : 0 ≤ d) :
    exF.func 2 false (fin d) = (fin (2 * (d / (1 + d))), fin (2 * (1 / ((1 + d) * (1 + d))))) := by
  have key : ∀ i j, exF.pj (fin d) i j = (fin (d / (1 + d)), fin (1 / ((1 + d) * (1 + d)))) := by
    intro i j
    have h1 : (1 + d) ≠ 0 := by linarith
    simp only [exF, denseFit, Dense.FitnessModel.p_jac_ij, arrN, isZero_fin, NNReal.coe_one,
      one_ne_zero, decide_false, Bool.or_self, Bool.false_eq_true, if_false]
    by_cases h : d = 0
    · simp [h, zero_def]
    · simp [h, one_def, h1, XR.fin_div_fin]
  unfold Fitter.func
  rw [exp_edges_f_jac_eq (P := fun _ d => d / (1 + d)) (P' := fun _ d => 1 / ((1 + d) * (1 + d)))
    key]
  have hc : (Law.pairs 2 false).card = 2 := by decide
  simp [total, hc]

theorem exF_reproduces : exF.Reproduces 2 false 1 1 := by
  have hF : IsFitter exF := .denseFit _ _ _
  rw [reproduces_iff hF]
  have h1 := Fitter.rep hF 2 false 1 zero_le_one
  rw [exF_func zero_le_one] at h1
  simp only [Prod.mk.injEq, fin_inj] at h1
  have : ((1 : ℝ≥0) : ℝ) = 1 := rfl
  rw [this, ← h1.1]
  norm_num

/-- The hypotheses of C33 and C54 hold for one expected edge on two vertices with unit
properties, and the bound of C54 guarantees convergence within 3 iterations for a tolerance
of one edge. -/
example : ∃ sol, Solver.solve (cfg (exF.func 2 false) 1 ⟨1, 0, 3⟩) (fin 0) = .ok sol ∧
    sol.converged = true := by
  obtain ⟨sol, slope, h1, h2, -, -, h3⟩ := C54 (F := exF) (.denseFit _ _ _)
    (agree_self exF 2 false) (o := ⟨1, 0, 3⟩) one_pos le_rfl exF_reproduces (x0 := 0) zero_le
  refine ⟨sol, h1, h3 ?_⟩
  rw [exF_func le_rfl] at h2
  simp only [fin_inj] at h2
  rw [← h2]
  norm_num

/-- C34: one expected edge on two vertices has exactly one solution. -/
example : ∃! d : ℝ≥0, 0 < d ∧ exF.Reproduces 2 false 1 d := by
  refine C34_unique (F := exF) (.denseFit _ _ _) one_pos ?_
  have : exF.numLinkable 2 false = 2 := by
    classical
    unfold Fitter.numLinkable
    have : (Law.pairs 2 false).filter (fun e => exF.linkable e.1 e.2) = Law.pairs 2 false := by
      rw [Finset.filter_eq_self]
      intro e _
      exact ⟨one_ne_zero, one_ne_zero⟩
    rw [this]
    decide
  rw [this]
  norm_num

/-- One Newton step from zero towards one expected edge on two vertices with unit properties:
the residual at `1/2` is `1/3`. -/
theorem half_run {func : XR → XR × XR} (hf : exF.Objective 2 false func) :
    ∃ sol, Solver.solve (cfg func 1 ⟨1 / 2, 0, 1⟩) (fin 0) = .ok sol ∧
      sol.x = fin (1 / 2) ∧ sol.converged = true := by
  have e1 : func (fin 0) = (fin 0, fin 2) := by
    have := hf 0
    rw [NNReal.coe_zero] at this
    rw [this, exF_func le_rfl]; norm_num
  have e2 : func (fin (1 / 2)) = (fin (2 / 3), fin (8 / 9)) := by
    have := hf ⟨1 / 2, by norm_num⟩
    change func (fin (1 / 2)) = exF.func 2 false (fin (1 / 2)) at this
    rw [this, exF_func (by norm_num)]; norm_num
  set c := cfg func 1 ⟨1 / 2, 0, 1⟩ with hc
  let s1 : Solver.St :=
    { n_iter := 0, x := fin 0, f := fin (-1), f_p := fin 2, x_l := fin 0, x_u := pinf,
      f_l := some (fin (-1)), f_u := none, norm := fin 1, diff := fin 1, f_seq := [fin (-1)],
      x_seq := [fin 0], norm_seq := [fin 1], diff_seq := [fin 1] }
  let s2 : Solver.St :=
    { n_iter := 1, x := fin (1 / 2), f := fin (-(1 / 3)), f_p := fin (8 / 9),
      x_l := fin (1 / 2), x_u := pinf, f_l := some (fin (-(1 / 3))), f_u := none,
      norm := fin (1 / 3), diff := fin 1, f_seq := [fin (-1), fin (-(1 / 3))],
      x_seq := [fin 0, fin (1 / 2)], norm_seq := [fin 1, fin (1 / 3)],
      diff_seq := [fin 1, fin 1] }
  have hi : Solver.bracketInit (Solver.init c (fin 0)) = .ok s1 := by
    simp only [Solver.init, hc, cfg, e1, s1, Solver.bracketInit, Solver.signs, Solver.pos,
      Solver.negv, zero_def]
    norm_num [leb, ltb]
  have n1 : Solver.nextX c s1 = fin (1 / 2) := by
    simp only [Solver.nextX, hc, cfg, s1, Solver.newtonDx, isZero, npDiv]
    norm_num [leb]
  have t1 : Solver.step c s1 = .ok s2 := by
    unfold Solver.step
    rw [n1]
    simp only [Solver.evalAt, hc, cfg, e2, s1, s2, Solver.bracketLoop, Solver.signs, Solver.pos,
      Solver.negv, zero_def]
    norm_num [isZero, Except.map, Solver.record, isInf, npDiv]
  have c1 : Solver.continues c s1 = true := by
    simp only [Solver.continues, hc, cfg, s1, Solver.Cfg.tol]; norm_num
  have hloop : Solver.loop c c.max_iter s1 = .ok s2 := by
    show Solver.loop c 1 s1 = .ok s2
    simp [Solver.loop, c1, t1, Except.bind]
  refine ⟨Solver.mkSolution c s2, ?_, rfl, ?_⟩
  · unfold Solver.solve
    have hin : (ltb c.x_u (fin 0) || ltb (fin 0) c.x_l) = false := by
      simp only [hc, cfg]; norm_num [ltb]
    have hnm : ltb (Solver.init c (fin 0)).norm (fin c.atol) = false := by
      simp only [Solver.init, hc, cfg, e1]; norm_num
    simp only [hin, hnm, Bool.false_eq_true, if_false, hi, Except.bind, hloop, Except.map]
  · simp only [Solver.mkSolution, hc, cfg, s2]
    norm_num

/-- **C34** is false for a per-label fit started from an integer: `fit(x0=0)` on a model with one
label (two vertices with unit properties, one edge, tolerance half an edge) reports convergence
at `1/2`, but the stored parameter is the integer part `0`, whose expected number of edges is
`0`. -/
theorem C34_integer_start_violated :
    ∃ (M : MultiModel) (o : Opts) (r : MultiFit) (sol : Solver.Solution),
      M.num_labels = 1 ∧ M.per_label = true ∧ M.num_edges_label = some (fun _ => 1) ∧
      M.layer 0 = exp_edges_f_jac_layer MultiFitnessModel.p_jac_ijk (rowN [(0, 1), (1, 1)])
        (rowN [(0, 1), (1, 1)]) false ∧
      fitMulti M (.scalar (fin 0) true) .density o = .ok r ∧
      r.outputs = [sol] ∧ sol.converged = true ∧ r.param = [fin 0] ∧
      (Ens.denseFit 0 (fun _ => 1) (fun _ => 1) (fun _ _ => 1)).exp_edges 2 false = fin 0 ∧
      ¬ |(0 : ℝ) - 1| ≤ o.atol + o.rtol * 1 := by
  set l : List (ℕ × ℝ≥0) := [(0, 1), (1, 1)] with hl
  have hs : RowSorted l := by simp [RowSorted, hl]
  have hn : ∀ e ∈ l, e.1 < 2 := by simp [hl]
  set func := exp_edges_f_jac_layer MultiFitnessModel.p_jac_ijk (rowN l) (rowN l) false with hfunc
  have hag : exF.Objective 2 false func := by
    intro d
    have h1 := layer_fit hs hs hn hn (fun _ _ => 1) false d
    rw [← hfunc] at h1
    rw [h1]
    unfold Fitter.func exF denseFit exp_edges_f_jac
    have he0 : entry l 0 = 1 := by simp [hl, entry_cons]
    have he1 : entry l 1 = 1 := by simp [hl, entry_cons]
    simp only [List.range_succ, List.range_zero, List.nil_append, List.foldl_append,
      List.foldl_cons, List.foldl_nil, arrN, he0, he1]
  obtain ⟨sol, hsolve, h2, h3⟩ := half_run hag
  let M : MultiModel := ⟨1, true, none, some (fun _ => 1), fun _ => (0, 0), fun _ => func⟩
  refine ⟨M, ⟨1 / 2, 0, 1⟩, ⟨[fin 0], [sol]⟩, sol, rfl, rfl, rfl, rfl, ?_, rfl, h3, rfl, ?_, ?_⟩
  · have hneg : anyNeg [fin 0] = false := by simp [anyNeg, zero_def]
    have hst : store true (fin (1 / 2)) = fin 0 := by
      simp only [store, if_true]
      norm_num
    have hlab : fitLabel M (fun _ => 1) ⟨[fin 0], true, true⟩ ⟨1 / 2, 0, 1⟩ ⟨[fin 0], []⟩ 0 =
        .ok ⟨[fin 0], [sol]⟩ := by
      have : Solver.solve (cfg (M.layer 0) 1 ⟨1 / 2, 0, 1⟩)
        (([fin 0] : List XR).getD 0 0) = .ok sol := hsolve
      unfold fitLabel
      simp only [this, Except.mapError, h2, hst]
      rfl
    have hfl : fitLabels M (fun _ => 1) ⟨[fin 0], true, true⟩ ⟨1 / 2, 0, 1⟩ =
        .ok ⟨[fin 0], [sol]⟩ := by
      show (List.range 1).foldlM (fitLabel M (fun _ => 1) ⟨[fin 0], true, true⟩ ⟨1 / 2, 0, 1⟩) _ = _
      simp only [List.range_succ, List.range_zero, List.nil_append, List.foldlM_cons,
        List.foldlM_nil, hlab]
      rfl
    have hx : (X0.scalar (fin 0) true).multi M.num_labels = ⟨[fin 0], true, true⟩ := rfl
    have hpl : M.per_label = true := rfl
    have hnl : M.num_edges_label = some (fun _ => 1) := rfl
    unfold fitMulti
    simp only [hx, hneg, hpl, hnl, hfl, Bool.not_true, Bool.false_eq_true, if_false, if_true]
    rfl
  · have := Fitter.exp_edges (F := exF) (.denseFit _ _ _) 2 false 0
    have h4 := Fitter.rep (F := exF) (.denseFit _ _ _) 2 false 0 le_rfl
    rw [exF_func le_rfl] at h4
    simp only [Prod.mk.injEq, fin_inj] at h4
    have h5 : (Fitter.ens exF ((0 : ℝ≥0) : ℝ≥0∞)) =
        Ens.denseFit 0 (fun _ => 1) (fun _ => 1) (fun _ _ => 1) := by
      simp [exF, denseFit]
      rfl
    rw [← h5, this, NNReal.coe_zero, ← h4.1]
    norm_num
  · norm_num

/-- C35: two-label models that differ in the number of edges of the second label. -/
example : ∃ (M M' : MultiModel) (r r' : MultiFit), M.num_edges_label ≠ M'.num_edges_label ∧
    fitMulti M .none .density ⟨1 / 2, 0, 10⟩ = .ok r ∧
    fitMulti M' .none .density ⟨1 / 2, 0, 10⟩ = .ok r' ∧ r.param[0]? = r'.param[0]? ∧
    (r.param[0]?).isSome := by
  let M : ℝ → MultiModel := fun b =>
    ⟨2, true, none, some (fun i => if i = 0 then 1 else b), fun _ => (0, 0),
      fun _ => exF.func 2 false⟩
  have hok : ∀ b, 0 ≤ b → ∃ r, fitMulti (M b) .none .density ⟨1 / 2, 0, 10⟩ = .ok r := fun b hb =>
    C54_label (by norm_num) le_rfl rfl rfl (fun i _ => by show (0 : ℝ) ≤ if i = 0 then 1 else b; split_ifs <;> linarith)
      (fun i _ => ⟨exF, 2, false, .denseFit _ _ _, agree_self _ _ _⟩)
  obtain ⟨r, hr⟩ := hok 1 zero_le_one
  obtain ⟨r', hr'⟩ := hok 0 le_rfl
  have := C35_independent (M := M 1) (M' := M 0) (i := 0) (by decide) (by decide) rfl rfl rfl rfl rfl rfl rfl rfl hr hr'
  refine ⟨M 1, M 0, r, r', ?_, hr, hr', this.1, this.2.2⟩
  intro h
  have h1 := congrFun (Option.some.inj h) 1
  norm_num at h1

end Fit

end

end Verif
