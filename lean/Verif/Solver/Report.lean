import Verif.Solver.Props

/-!
# C66, C67: the recorded history of a run and the class `Solution`
-/

namespace Verif

open XR

noncomputable section

namespace Solver

/-! ### The class `Solution` -/

/-- The argument `method` of `Solution` (`/repo/src/graph_ensembles/solver.py:10`). -/
inductive SolMethod where
  | newton | fixedPoint | other
  deriving DecidableEq

/-- Keyword arguments of `Solution` (`solver.py:18-27`): the allowed ones, and the names of the
other ones that were passed. -/
structure Kwargs where
  f_seq : Option (List XR) := none
  x_seq : Option (List XR) := none
  norm_seq : Option (List XR) := none
  diff_seq : Option (List XR) := none
  atol : Option ℝ := none
  rtol : Option ℝ := none
  illegal : List String := []

/-- Exceptions of `Solution.__init__`; reading the last element of an empty sequence is an
`IndexError`. -/
inductive SolErr where
  | valueError | indexError
  deriving DecidableEq

/-- Attributes of a `Solution`; `none` for a flag that was not set. -/
structure SolObj where
  x : XR
  target : ℝ
  n_iter : ℕ
  max_iter : ℕ
  kw : Kwargs
  max_iter_reached : Bool
  converged : Option Bool
  no_change_stop : Option Bool

/-- `seq[-1]` -/
def lastElem (l : List XR) : Except SolErr XR :=
  match l.getLast? with
  | some v => .ok v
  | none => .error .indexError

/-- The test of `solver.py:41-49`. -/
def newtonConverged (target : ℝ) (kw : Kwargs) : Except SolErr Bool :=
  match kw.atol, kw.rtol, kw.norm_seq with
  | some atol, some rtol, some norm_seq =>
    (lastElem norm_seq).map (fun v => leb v (fin (atol + rtol * target)))
  | _, _, _ => .error .valueError

/-- The test `diff_seq[-1] <= rtol` of `solver.py:51-57` and `60-66`. -/
def changeSmall (kw : Kwargs) : Except SolErr Bool :=
  match kw.rtol, kw.diff_seq with
  | some rtol, some diff_seq => (lastElem diff_seq).map (fun v => leb v (fin rtol))
  | _, _ => .error .valueError

/-- `Solution.__init__` (`/repo/src/graph_ensembles/solver.py:10-66`). -/
def Sol.new (x : XR) (target : ℝ) (n_iter max_iter : ℕ) (method : SolMethod) (kw : Kwargs) :
    Except SolErr SolObj :=
  if kw.illegal ≠ [] then .error .valueError
  else
    let o : SolObj :=
      { x := x, target := target, n_iter := n_iter, max_iter := max_iter, kw := kw,
        max_iter_reached := decide (max_iter ≤ n_iter), converged := none,
        no_change_stop := none }
    match method with
    | .newton =>
      (newtonConverged target kw).bind fun c =>
        (changeSmall kw).map fun d => { o with converged := some c, no_change_stop := some d }
    | .fixedPoint => (changeSmall kw).map fun d => { o with converged := some d }
    | .other => .ok o

theorem new_newton {x : XR} {target : ℝ} {n_iter max_iter : ℕ} {kw : Kwargs} {atol rtol : ℝ}
    {ln ld : List XR} {v d : XR} (hi : kw.illegal = []) (ha : kw.atol = some atol)
    (hr : kw.rtol = some rtol) (hn : kw.norm_seq = some (ln ++ [v]))
    (hd : kw.diff_seq = some (ld ++ [d])) :
    Sol.new x target n_iter max_iter .newton kw = .ok
      { x := x, target := target, n_iter := n_iter, max_iter := max_iter, kw := kw,
        max_iter_reached := decide (max_iter ≤ n_iter),
        converged := some (leb v (fin (atol + rtol * target))),
        no_change_stop := some (leb d (fin rtol)) } := by
  have l1 : lastElem (ln ++ [v]) = .ok v := by simp [lastElem]
  have l2 : lastElem (ld ++ [d]) = .ok d := by simp [lastElem]
  simp only [Sol.new, newtonConverged, changeSmall, hi, ha, hr, hn, hd, l1, l2, ne_eq,
    not_true_eq_false, if_false, Except.bind, Except.map]

/-! ### C67 -/

/-- **C67**, the report built by the solver: calling `Solution` with the final values of a run, as
`monotonic_newton_solver` does, never fails and gives exactly the flags of the modelled
report. -/
theorem C67_solver {c : Cfg} {x0 : XR} {r : Solution} (h : solve c x0 = .ok r) :
    ∃ o, Sol.new r.x c.target r.n_iter c.max_iter .newton
        { f_seq := some r.f_seq, x_seq := some r.x_seq, norm_seq := some r.norm_seq,
          diff_seq := some r.diff_seq, atol := some c.atol, rtol := some c.rtol } = .ok o ∧
      o.x = r.x ∧ o.target = c.target ∧ o.n_iter = r.n_iter ∧ o.max_iter = c.max_iter ∧
      o.max_iter_reached = r.max_iter_reached ∧ o.converged = some r.converged ∧
      o.no_change_stop = some r.no_change_stop := by
  obtain ⟨s, b, rfl, -⟩ := run_end h
  obtain ⟨ln, hln⟩ := b.n_last
  obtain ⟨ld, hld⟩ := b.d_last
  refine ⟨_, new_newton rfl rfl rfl (congrArg some hln) (congrArg some hld), rfl, rfl, rfl, rfl,
    rfl, ?_, ?_⟩
  · simp [mkSolution, hln]
  · simp [mkSolution, hld]

/-- **C67**: with `method = "newton"` the constructor succeeds iff only known arguments are
passed, `atol`, `rtol` and both sequences are given and the sequences are not empty. -/
theorem C67_newton (x : XR) (target : ℝ) (n_iter max_iter : ℕ) (kw : Kwargs) :
    (∃ o, Sol.new x target n_iter max_iter .newton kw = .ok o) ↔
      kw.illegal = [] ∧ kw.atol.isSome ∧ kw.rtol.isSome ∧
      (∃ a l, kw.norm_seq = some (l ++ [a])) ∧ ∃ a l, kw.diff_seq = some (l ++ [a]) := by
  obtain ⟨f_seq, x_seq, norm_seq, diff_seq, atol, rtol, illegal⟩ := kw
  have key : ∀ l : List XR, (∃ v, lastElem l = .ok v) ↔ ∃ a l', l = l' ++ [a] := by
    intro l
    rcases List.eq_nil_or_concat l with rfl | ⟨l', a, rfl⟩
    · simp [lastElem]
    · simp only [List.concat_eq_append]
      exact ⟨fun _ => ⟨a, l', rfl⟩, fun _ => ⟨a, by simp [lastElem]⟩⟩
  have key' : ∀ l : List XR, (∃ a l', l = l' ++ [a]) → ∃ v, lastElem l = .ok v := fun l => (key l).2
  unfold Sol.new newtonConverged changeSmall
  constructor
  · rintro ⟨o, ho⟩
    by_cases hi : illegal = []
    · cases atol <;> cases rtol <;> cases norm_seq <;> cases diff_seq <;>
        simp [hi, Except.bind, Except.map] at ho
      · rename_i l
        cases h1 : lastElem l <;> simp [h1] at ho
      · rename_i a b l l'
        cases h1 : lastElem l with
        | error e => simp [h1] at ho
        | ok v =>
          cases h2 : lastElem l' with
          | error e => simp [h1, h2] at ho
          | ok v' =>
            refine ⟨hi, rfl, rfl, ?_, ?_⟩
            · obtain ⟨a, t, e⟩ := (key l).1 ⟨v, h1⟩
              exact ⟨a, t, congrArg some e⟩
            · obtain ⟨a, t, e⟩ := (key l').1 ⟨v', h2⟩
              exact ⟨a, t, congrArg some e⟩
    · simp [hi] at ho
  · rintro ⟨hi, ha, hr, ⟨a, l, hn⟩, ⟨a', l', hd⟩⟩
    simp only at hi ha hr hn hd
    obtain ⟨at', rfl⟩ := Option.isSome_iff_exists.1 ha
    obtain ⟨rt', rfl⟩ := Option.isSome_iff_exists.1 hr
    subst hi hn hd
    exact ⟨_, new_newton rfl rfl rfl rfl rfl⟩

/-- **C67**, flags: `max_iter_reached` holds iff `n_iter ≥ max_iter`; for `newton`, `converged`
holds iff the last residual is within `atol + rtol * target` and `no_change_stop` iff the last
change is at most `rtol`; for `fixed-point`, `converged` holds iff the last change is at most
`rtol`, and `no_change_stop` is not set; for other methods neither flag is set. -/
theorem C67_flags {x : XR} {target : ℝ} {n_iter max_iter : ℕ} {method : SolMethod} {kw : Kwargs}
    {o : SolObj} (h : Sol.new x target n_iter max_iter method kw = .ok o) :
    (o.x = x ∧ o.target = target ∧ o.n_iter = n_iter ∧ o.max_iter = max_iter ∧ o.kw = kw) ∧
    (o.max_iter_reached = true ↔ max_iter ≤ n_iter) ∧
    (method = .newton → ∃ atol rtol ln ld v d, kw.atol = some atol ∧ kw.rtol = some rtol ∧
      kw.norm_seq = some (ln ++ [v]) ∧ kw.diff_seq = some (ld ++ [d]) ∧
      o.converged = some (leb v (fin (atol + rtol * target))) ∧
      o.no_change_stop = some (leb d (fin rtol))) ∧
    (method = .fixedPoint → ∃ rtol ld d, kw.rtol = some rtol ∧ kw.diff_seq = some (ld ++ [d]) ∧
      o.converged = some (leb d (fin rtol)) ∧ o.no_change_stop = none) ∧
    (method = .other → o.converged = none ∧ o.no_change_stop = none) := by
  obtain ⟨f_seq, x_seq, norm_seq, diff_seq, atol, rtol, illegal⟩ := kw
  have hlast : ∀ {l : List XR} {v}, lastElem l = .ok v → ∃ l', l = l' ++ [v] := by
    intro l v hl
    rcases List.eq_nil_or_concat l with rfl | ⟨l', a, rfl⟩
    · simp [lastElem] at hl
    · simp only [List.concat_eq_append] at hl ⊢
      simp [lastElem] at hl
      exact ⟨l', by rw [hl]⟩
  unfold Sol.new at h
  simp only [ne_eq, ite_not] at h
  split_ifs at h with hi
  cases method with
  | newton =>
    simp only [newtonConverged, changeSmall] at h
    cases atol <;> cases rtol <;> cases norm_seq <;> simp [Except.bind, Except.map] at h
    rename_i a b l
    cases h1 : lastElem l <;> simp [h1] at h
    rename_i v
    cases diff_seq <;> simp at h
    rename_i l'
    cases h2 : lastElem l' <;> simp [h2] at h
    rename_i d
    subst h
    obtain ⟨t, rfl⟩ := hlast h1
    obtain ⟨t', rfl⟩ := hlast h2
    refine ⟨⟨rfl, rfl, rfl, rfl, rfl⟩, by simp, fun _ => ⟨a, b, t, t', v, d, rfl, rfl, rfl, rfl, rfl, rfl⟩,
      nofun, nofun⟩
  | fixedPoint =>
    simp only [changeSmall] at h
    cases rtol <;> cases diff_seq <;> simp [Except.map] at h
    rename_i b l'
    cases h2 : lastElem l' <;> simp [h2] at h
    rename_i d
    subst h
    obtain ⟨t', rfl⟩ := hlast h2
    refine ⟨⟨rfl, rfl, rfl, rfl, rfl⟩, by simp, nofun,
      fun _ => ⟨b, t', d, rfl, rfl, rfl, rfl⟩, nofun⟩
  | other =>
    simp only [Except.ok.injEq] at h
    subst h
    exact ⟨⟨rfl, rfl, rfl, rfl, rfl⟩, by simp, nofun, nofun,
      fun _ => ⟨rfl, rfl⟩⟩

/-- A fixed-point report that converged. -/
example : ∃ o, Sol.new (fin 2) 1 3 3 .fixedPoint
    { diff_seq := some [fin 1, fin (1 / 2)], rtol := some 1 } = .ok o ∧
    o.converged = some true ∧ o.max_iter_reached = true := by
  refine ⟨_, rfl, ?_, by decide⟩
  simp
  norm_num

/-- A newton report without `norm_seq` raises. -/
example : Sol.new (fin 2) 1 3 3 .newton
    { diff_seq := some [fin 1], rtol := some 1, atol := some 1 } = .error .valueError := rfl

/-! ### C66 -/

/-- What the recorded sequences hold at every moment of a run. -/
structure History (c : Cfg) (x0 : XR) (s : St) : Prop where
  head : s.x_seq.head? = some x0
  last : ∃ l, s.x_seq = l ++ [s.x]
  len : s.x_seq.length = s.n_iter + 1
  res : s.f = (c.func s.x).1 + -(fin c.target)
  f : s.f_seq = s.x_seq.map (fun x => (c.func x).1 + -(fin c.target))
  norm : s.norm_seq = s.x_seq.map (residual c)
  diff_len : s.diff_seq.length = s.n_iter + 1
  diff : ∀ k ≤ s.n_iter, s.diff_seq[k]? = some (lastChange (s.x_seq.take (k + 1)))
  cur_norm : s.norm = residual c s.x
  cur_diff : s.diff = lastChange s.x_seq
  goes : ∀ k < s.n_iter, ∃ v d, s.norm_seq[k]? = some v ∧ s.diff_seq[k]? = some d ∧
    ltb (fin c.tol) v = true ∧ ltb (fin c.rtol) d = true

theorem history_init (c : Cfg) (x0 : XR) : History c x0 (init c x0) where
  head := rfl
  last := ⟨[], rfl⟩
  len := rfl
  res := rfl
  f := rfl
  norm := rfl
  diff_len := rfl
  diff := by
    intro k hk
    have : k = 0 := by simpa [init] using hk
    subst this
    rfl
  cur_norm := rfl
  cur_diff := rfl
  goes := by intro k hk; simp [init] at hk

theorem history_start {c : Cfg} {x0 : XR} {s : St} (h : bracketInit (init c x0) = .ok s) :
    History c x0 s := by
  obtain ⟨h1, h2, h3, h4, h5, h6, h7, h8, h9, h10⟩ := bracketInit_keeps h
  have hi := history_init c x0
  constructor
  · rw [h6]; exact hi.head
  · rw [h6, h1]; exact hi.last
  · rw [h6, h4]; exact hi.len
  · rw [h2, h1]; exact hi.res
  · rw [h5, h6]; exact hi.f
  · rw [h7, h6]; exact hi.norm
  · rw [h8, h4]; exact hi.diff_len
  · rw [h8, h6, h4]; exact hi.diff
  · rw [h9, h1]; exact hi.cur_norm
  · rw [h10, h6]; exact hi.cur_diff
  · rw [h4, h7, h8]; exact hi.goes

theorem history_step {c : Cfg} {x0 : XR} {s s' : St} (b : Book c s) (hs : History c x0 s)
    (hc : continues c s = true) (h : step c s = .ok s') : History c x0 s' := by
  have b' := book_step b hc h
  obtain ⟨q1, q2, q3, q4⟩ := step_seq h
  have hn := step_n_iter h
  have hx := step_x h
  have hf : s'.f = (c.func s'.x).1 + -(fin c.target) := by rw [hx]; exact step_f h
  have hnl : s.norm_seq.length = s.n_iter + 1 := by rw [hs.norm, List.length_map, hs.len]
  constructor
  · rw [q1, List.head?_append_of_ne_nil]
    · exact hs.head
    · intro h0
      have := hs.len
      rw [h0] at this
      simp at this
  · exact b'.x_last
  · exact b'.len
  · exact hf
  · rw [q2, q1, hs.f, List.map_append, hf]; rfl
  · rw [q3, q1, hs.norm, List.map_append, b'.nrm]; rfl
  · rw [q4, List.length_append, hs.diff_len, hn]; rfl
  · intro k hk
    rw [hn] at hk
    rw [q4]
    rcases Nat.lt_or_ge k (s.n_iter + 1) with hlt | hge
    · rw [List.getElem?_append_left (by rw [hs.diff_len]; exact hlt), hs.diff k (by omega), q1,
        List.take_append_of_le_length (by rw [hs.len]; omega)]
    · have : k = s.n_iter + 1 := by omega
      subst this
      rw [List.getElem?_append_right (by rw [hs.diff_len]), hs.diff_len, b'.dif]
      rw [List.take_of_length_le (by rw [b'.len, hn])]
      simp
  · exact b'.nrm
  · exact b'.dif
  · intro k hk
    rw [hn] at hk
    rw [q3, q4, List.getElem?_append_left (by omega),
      List.getElem?_append_left (by rw [hs.diff_len]; omega)]
    rcases Nat.lt_or_ge k s.n_iter with hlt | hge
    · exact hs.goes k hlt
    · have : k = s.n_iter := by omega
      subst this
      obtain ⟨ln, hln⟩ := b.n_last
      obtain ⟨ld, hld⟩ := b.d_last
      have l1 : ln.length = s.n_iter := by
        have := hnl; rw [hln] at this; simpa using this
      have l2 : ld.length = s.n_iter := by
        have := hs.diff_len; rw [hld] at this; simpa using this
      simp only [continues, Bool.and_eq_true] at hc
      refine ⟨s.norm, s.diff, ?_, ?_, hc.1.1, hc.2⟩
      · rw [hln, List.getElem?_append_right (by omega), l1]; simp
      · rw [hld, List.getElem?_append_right (by omega), l2]; simp

theorem run_history {c : Cfg} {x0 : XR} {r : Solution} (h : solve c x0 = .ok r) :
    ∃ s, History c x0 s ∧ r = mkSolution c s := by
  rcases (solve_ok h).2 with ⟨-, rfl⟩ | ⟨-, s1, s2, h2, h3, rfl⟩
  · exact ⟨_, history_init c x0, rfl⟩
  · refine ⟨s2, ?_, rfl⟩
    exact (loop_inv c (P := fun s => Book c s ∧ History c x0 s)
      (fun s s' hs hc hst => ⟨book_step hs.1 hc hst, history_step hs.1 hs.2 hc hst⟩) _ _ _
      ⟨book_start h2, history_start h2⟩ h3).2

/-- **C66**: the recorded history of a run.  The points start with `x0`; the `k`-th recorded
value and residual are those of the function at the `k`-th point, and the `k`-th recorded change
is the relative change to the `k`-th point; all four sequences have one entry per point; at every
point but the last neither stopping test was met. -/
theorem C66_history {c : Cfg} {x0 : XR} {r : Solution} (h : solve c x0 = .ok r) :
    r.target = c.target ∧ r.max_iter = c.max_iter ∧ r.x_seq.head? = some x0 ∧
    r.f_seq = r.x_seq.map (fun x => (c.func x).1 + -(fin c.target)) ∧
    r.norm_seq = r.x_seq.map (fun x => ((c.func x).1 + -(fin c.target)).abs) ∧
    r.diff_seq.length = r.x_seq.length ∧
    (∀ k ≤ r.n_iter, r.diff_seq[k]? = some (lastChange (r.x_seq.take (k + 1)))) ∧
    ∀ k < r.n_iter, ∃ v d, r.norm_seq[k]? = some v ∧ r.diff_seq[k]? = some d ∧
      ltb (fin (c.atol + c.rtol * c.target)) v = true ∧ ltb (fin c.rtol) d = true := by
  obtain ⟨s, hs, rfl⟩ := run_history h
  refine ⟨rfl, rfl, hs.head, hs.f, hs.norm, ?_, hs.diff, hs.goes⟩
  show s.diff_seq.length = s.x_seq.length
  rw [hs.diff_len, hs.len]

/-- **C66**, start: the solver refuses a start outside the interval with a `ValueError`, and only
then. -/
theorem C66_rejects (c : Cfg) (x0 : XR) :
    solve c x0 = .error .valueError ↔ ltb c.x_u x0 = true ∨ ltb x0 c.x_l = true := by
  have hloop : ∀ (fuel : ℕ) (s : St), loop c fuel s ≠ .error .valueError := by
    intro fuel
    induction fuel with
    | zero => intro s h; simp [loop] at h
    | succ n ih =>
      intro s h
      unfold loop at h
      split_ifs at h with hc
      cases hst : step c s with
      | ok t => rw [hst] at h; exact ih t h
      | error e =>
        rw [hst] at h
        simp only [Except.bind, Except.error.injEq] at h
        subst h
        unfold step bracketLoop at hst
        split at hst
        · simp [Except.map] at hst
        · split_ifs at hst <;> simp [Except.map] at hst
  unfold solve
  by_cases h1 : (ltb c.x_u x0 || ltb x0 c.x_l) = true
  · simp only [h1, if_true, true_iff]
    simpa using h1
  · have h1' : ¬ (ltb c.x_u x0 = true ∨ ltb x0 c.x_l = true) := by simpa using h1
    simp only [h1, Bool.false_eq_true, if_false, h1', iff_false]
    split_ifs with h2
    · simp
    · cases hb : bracketInit (init c x0) with
      | ok s =>
        simp only [Except.bind]
        cases hl : loop c c.max_iter s with
        | ok t => simp [Except.map]
        | error e =>
          simp only [Except.map, ne_eq, Except.error.injEq]
          rintro rfl
          exact hloop _ _ hl
      | error e =>
        simp only [Except.bind, ne_eq, Except.error.injEq]
        rintro rfl
        unfold bracketInit at hb
        split at hb
        · cases hb
        · split_ifs at hb <;> simp at hb

/-- **C66**, immediate return: from a point of the interval whose residual is below `atol` the
solver returns that point without iterating, and reports the single recorded change `1`. -/
theorem C66_immediate {c : Cfg} {x0 : XR} (hin : ¬ (ltb c.x_u x0 = true ∨ ltb x0 c.x_l = true))
    (hr : ltb (residual c x0) (fin c.atol) = true) :
    ∃ r, solve c x0 = .ok r ∧ r.x = x0 ∧ r.n_iter = 0 ∧ r.x_seq = [x0] ∧ r.diff_seq = [fin 1] := by
  refine ⟨mkSolution c (init c x0), ?_, rfl, rfl, rfl, rfl⟩
  unfold solve
  have h1 : (ltb c.x_u x0 || ltb x0 c.x_l) = false := by simpa [not_or] using hin
  have h2 : ltb (init c x0).norm (fin c.atol) = true := hr
  simp only [h1, Bool.false_eq_true, if_false, h2, if_true]

/-- **C66**, `full_return=False` returns the point of the full report. -/
theorem C66_point (c : Cfg) (x0 : XR) (v : XR) :
    solveX c x0 = .ok v ↔ ∃ r, solve c x0 = .ok r ∧ r.x = v := by
  unfold solveX
  cases solve c x0 with
  | ok r => simp [Except.map]
  | error e => simp [Except.map]

/-- The run of `clip_run` has a history with three points. -/
example : ∃ r, solve clipCfg (fin (1 / 2)) = .ok r ∧
    r.norm_seq = r.x_seq.map (fun x => ((clipCfg.func x).1 + -(fin clipCfg.target)).abs) := by
  obtain ⟨r, h, -, -⟩ := clip_run
  exact ⟨r, h, (C66_history h).2.2.2.2.1⟩

end Solver

end

end Verif
