import Verif.Solver.Lemmas
import Mathlib.Tactic.NormNum

/-!
# C30-C32: the bracketed Newton solver
-/

namespace Verif

open XR

noncomputable section

namespace Solver

/-! ### Facts about every run -/

/-- What every state at the top of the loop satisfies, whatever the function. -/
structure Book (c : Cfg) (s : St) : Prop where
  x_last : ∃ l, s.x_seq = l ++ [s.x]
  n_last : ∃ l, s.norm_seq = l ++ [s.norm]
  d_last : ∃ l, s.diff_seq = l ++ [s.diff]
  len : s.x_seq.length = s.n_iter + 1
  nrm : s.norm = residual c s.x
  dif : s.diff = lastChange s.x_seq
  cnt : s.n_iter ≤ c.max_iter

theorem book_init (c : Cfg) (x0 : XR) : Book c (init c x0) where
  x_last := ⟨[], rfl⟩
  n_last := ⟨[], rfl⟩
  d_last := ⟨[], rfl⟩
  len := rfl
  nrm := rfl
  dif := by simp [init, lastChange]
  cnt := Nat.zero_le _

theorem book_start {c : Cfg} {x0 : XR} {s : St} (h : bracketInit (init c x0) = .ok s) :
    Book c s := by
  obtain ⟨h1, -, -, h4, -, h6, h7, h8, h9, h10⟩ := bracketInit_keeps h
  have b := book_init c x0
  exact {
    x_last := by rw [h1, h6]; exact b.x_last
    n_last := by rw [h9, h7]; exact b.n_last
    d_last := by rw [h10, h8]; exact b.d_last
    len := by rw [h6, h4]; exact b.len
    nrm := by rw [h9, h1]; exact b.nrm
    dif := by rw [h10, h6]; exact b.dif
    cnt := by rw [h4]; exact b.cnt }

theorem lastChange_snoc (l : List XR) (a b : XR) :
    lastChange ((l ++ [a]) ++ [b]) =
      if !(a.isZero) && !(a.isInf) then (npDiv (b + -a) a).abs else fin 1 := by
  cases a <;> simp [lastChange, isZero, isInf]

theorem book_step {c : Cfg} {s s' : St} (b : Book c s) (hc : continues c s = true)
    (h : step c s = .ok s') : Book c s' := by
  obtain ⟨h1, -, h3, h4⟩ := step_seq h
  obtain ⟨l, hl⟩ := b.x_last
  exact {
    x_last := ⟨_, h1⟩
    n_last := ⟨_, h3⟩
    d_last := ⟨_, h4⟩
    len := by rw [h1, step_n_iter h]; simp [b.len]
    nrm := by
      rw [step_norm h, step_f h, step_x h]; rfl
    dif := by
      rw [h1, hl, lastChange_snoc]
      obtain ⟨t, -, rfl⟩ := step_ok h
      rfl
    cnt := by
      rw [step_n_iter h]
      simp only [continues, Bool.and_eq_true, decide_eq_true_eq] at hc
      exact hc.1.2 }

/-- A successful run ends in a state with the book-keeping facts; it is the initial state of an
early return, or the loop condition is false there. -/
theorem run_end {c : Cfg} {x0 : XR} {r : Solution} (h : solve c x0 = .ok r) :
    ∃ s, Book c s ∧ r = mkSolution c s ∧
      ((s = init c x0 ∧ ltb s.norm (fin c.atol) = true) ∨ continues c s = false) := by
  rcases (solve_ok h).2 with ⟨h1, rfl⟩ | ⟨-, s1, s2, h2, h3, rfl⟩
  · exact ⟨_, book_init c x0, rfl, .inl ⟨rfl, h1⟩⟩
  · refine ⟨s2, loop_inv c (fun s s' hs hc hst => book_step hs hc hst) _ _ _ (book_start h2) h3,
      rfl, .inr (loop_stops c _ _ _ (by omega) h3)⟩

theorem run_reaches {c : Cfg} {x0 : XR} {s1 s2 : St} (hx : c.Mem x0)
    (h0 : ltb (init c x0).norm (fin c.atol) = false)
    (h1 : bracketInit (init c x0) = .ok s1) (h2 : loop c c.max_iter s1 = .ok s2) :
    Reaches c x0 s2 :=
  loop_inv c (P := Reaches c x0) (fun _ _ hs hc hst => .next hs hc hst) _ _ _
    (.start hx h0 h1) h2

theorem Reaches.inv {σ : ℝ} {c : Cfg} {x0 : XR} {s : St} (hg : Good σ c)
    (h : Reaches c x0 s) : Inv σ c s := by
  induction h with
  | start hx _ hb => exact Inv.init hg hx hb
  | next _ hc hs ih => exact ih.step hg hc hs

theorem mem_of_ok {c : Cfg} {x0 : XR} {r : Solution} (hl : c.x_l ≠ nan) (hu : c.x_u ≠ nan)
    (hx : x0 ≠ nan) (h : solve c x0 = .ok r) : c.Mem x0 :=
  ⟨leb_of_not_ltb hx hl (solve_ok h).1.2, leb_of_not_ltb hu hx (solve_ok h).1.1⟩

/-! ### C30 -/

/-- **C30**, rejection: the solver raises `ValueError` exactly when the initial point is
outside the interval, whatever the function. -/
theorem C30_reject (c : Cfg) (x0 : XR) (hx : x0 ≠ nan) (hl : c.x_l ≠ nan) (hu : c.x_u ≠ nan) :
    solve c x0 = .error .valueError ↔ ¬ c.Mem x0 := by
  have hm : c.Mem x0 ↔ (ltb c.x_u x0 || ltb x0 c.x_l) = false := by
    unfold Cfg.Mem
    rw [leb_iff_of_num hl hx, leb_iff_of_num hx hu]
    simp [and_comm]
  constructor
  · intro h hmem
    rw [hm] at hmem
    unfold solve at h
    simp only [hmem, Bool.false_eq_true, if_false] at h
    split_ifs at h
    have hb : ∀ s, bracketInit s ≠ .error .valueError := by
      intro s hs
      unfold bracketInit at hs
      split at hs
      · simp at hs
      · split_ifs at hs
        simp at hs
    have hst : ∀ s, step c s ≠ .error .valueError := by
      intro s hs
      unfold step bracketLoop at hs
      split at hs
      · simp [Except.map] at hs
      · split_ifs at hs <;> simp [Except.map] at hs
    have hlp : ∀ n s, loop c n s ≠ .error .valueError := by
      intro n
      induction n with
      | zero => intro s hs; simp [loop] at hs
      | succ n ih =>
        intro s hs
        unfold loop at hs
        split_ifs at hs
        cases hss : step c s with
        | error e =>
          rw [hss] at hs
          simp only [Except.bind, Except.error.injEq] at hs
          exact hst s (hs ▸ hss)
        | ok t => rw [hss] at hs; exact ih t hs
    cases hbi : bracketInit (init c x0) with
    | error e =>
      rw [hbi] at h
      simp only [Except.bind, Except.error.injEq] at h
      exact hb _ (h ▸ hbi)
    | ok s1 =>
      rw [hbi] at h
      simp only [Except.bind] at h
      cases hll : loop c c.max_iter s1 with
      | error e =>
        rw [hll] at h
        simp only [Except.map, Except.error.injEq] at h
        exact hlp _ _ (h ▸ hll)
      | ok s2 => rw [hll] at h; simp [Except.map] at h
  · intro h
    rw [hm, Bool.not_eq_false] at h
    unfold solve
    simp only [h, if_true]

/-- **C30**, partial: the iterates and the returned value stay in the initial interval if values
and derivatives are numbers, the derivative does not change sign and, at a finite end of the
interval where the derivative vanishes, the value is on the right side of the target.

Missing: arbitrary functions, for which the claim is false (`C30_violated`). -/
theorem C30_partial {σ : ℝ} {c : Cfg} (hg : Good σ c) {x0 : XR} (hx : x0 ≠ nan)
    (hl : c.x_l ≠ nan) (hu : c.x_u ≠ nan) {r : Solution} (h : solve c x0 = .ok r) :
    c.Mem r.x ∧ ∀ x ∈ r.x_seq, c.Mem x := by
  have hm := mem_of_ok hl hu hx h
  rcases (solve_ok h).2 with ⟨-, rfl⟩ | ⟨h0, s1, s2, h1, h2, rfl⟩
  · refine ⟨hm, ?_⟩
    intro x hx
    simp only [mkSolution, init, List.mem_singleton] at hx
    exact hx ▸ hm
  · have hi := (run_reaches hm h0 h1 h2).inv hg
    exact ⟨hi.mem, hi.xs⟩

/-- The increasing function `min x 1` with its derivative, as used by the witness below. -/
def clip : XR → XR × XR
  | fin r => (fin (min r 1), fin (if r < 1 then 1 else 0))
  | pinf => (fin 1, fin 0)
  | ninf => (ninf, fin 1)
  | nan => (nan, nan)

/-- Invert `min x 1` at `2` on `[0, 1]`. -/
def clipCfg : Cfg :=
  { func := clip, target := 2, atol := 1 / 2, rtol := 0, max_iter := 2,
    x_l := fin 0, x_u := fin 1 }

theorem clip_run : ∃ r, solve clipCfg (fin (1 / 2)) = .ok r ∧ r.x = fin 2 ∧
    r.x_seq = [fin (1 / 2), fin 1, fin 2] := by
  have e1 : clip (fin (1 / 2)) = (fin (1 / 2), fin 1) := by
    simp only [clip]; norm_num
  have e2 : clip (fin 1) = (fin 1, fin 0) := by
    simp [clip]
  have e3 : clip (fin 2) = (fin 1, fin 0) := by
    simp only [clip]; norm_num
  let s1 : St :=
    { n_iter := 0, x := fin (1 / 2), f := fin (-(3 / 2)), f_p := fin 1, x_l := fin (1 / 2),
      x_u := fin 1, f_l := some (fin (-(3 / 2))), f_u := none, norm := fin (3 / 2),
      diff := fin 1, f_seq := [fin (-(3 / 2))], x_seq := [fin (1 / 2)],
      norm_seq := [fin (3 / 2)], diff_seq := [fin 1] }
  let s2 : St :=
    { n_iter := 1, x := fin 1, f := fin (-1), f_p := fin 0, x_l := fin (1 / 2),
      x_u := fin 1, f_l := some (fin (-(3 / 2))), f_u := some (fin (-1)), norm := fin 1,
      diff := fin 1, f_seq := [fin (-(3 / 2)), fin (-1)], x_seq := [fin (1 / 2), fin 1],
      norm_seq := [fin (3 / 2), fin 1], diff_seq := [fin 1, fin 1] }
  let s3 : St :=
    { n_iter := 2, x := fin 2, f := fin (-1), f_p := fin 0, x_l := fin (1 / 2),
      x_u := fin 1, f_l := some (fin (-(3 / 2))), f_u := some (fin (-1)), norm := fin 1,
      diff := fin 1, f_seq := [fin (-(3 / 2)), fin (-1), fin (-1)],
      x_seq := [fin (1 / 2), fin 1, fin 2],
      norm_seq := [fin (3 / 2), fin 1, fin 1], diff_seq := [fin 1, fin 1, fin 1] }
  have hi : bracketInit (init clipCfg (fin (1 / 2))) = .ok s1 := by
    simp only [init, clipCfg, e1, s1, bracketInit, signs, pos, negv, zero_def]
    norm_num [leb, ltb]
  have n1 : nextX clipCfg s1 = fin 1 := by
    simp only [nextX, clipCfg, s1, newtonDx, isZero, npDiv]
    norm_num
  have n2 : nextX clipCfg s2 = fin 2 := by
    simp only [nextX, clipCfg, s2, newtonDx, isZero, npDiv, isInf]
    norm_num
  have t1 : step clipCfg s1 = .ok s2 := by
    unfold step
    rw [n1]
    simp only [evalAt, clipCfg, e2, s1, s2, bracketLoop, signs, pos, negv, zero_def]
    norm_num [isZero, Except.map, record, isInf, npDiv]
  have t2 : step clipCfg s2 = .ok s3 := by
    unfold step
    rw [n2]
    simp only [evalAt, clipCfg, e3, s2, s3, bracketLoop, signs, pos, negv, zero_def]
    norm_num [isZero, Except.map, record, isInf, npDiv]
  have c1 : continues clipCfg s1 = true := by
    simp only [continues, clipCfg, s1, Cfg.tol]; norm_num
  have c2 : continues clipCfg s2 = true := by
    simp only [continues, clipCfg, s2, Cfg.tol]; norm_num
  have hloop : loop clipCfg clipCfg.max_iter s1 = .ok s3 := by
    show loop clipCfg 2 s1 = .ok s3
    simp [loop, c1, c2, t1, t2, Except.bind]
  refine ⟨mkSolution clipCfg s3, ?_, rfl, rfl⟩
  unfold solve
  have hin : (ltb clipCfg.x_u (fin (1 / 2)) || ltb (fin (1 / 2)) clipCfg.x_l) = false := by
    simp only [clipCfg]; norm_num
  have hnm : ltb (init clipCfg (fin (1 / 2))).norm (fin clipCfg.atol) = false := by
    simp only [init, clipCfg, e1]; norm_num
  simp only [hin, hnm, Bool.false_eq_true, if_false, hi, Except.bind, hloop, Except.map]

/-- **C30** is false for arbitrary functions, even increasing ones: asked to invert `min x 1` at
the unreachable value `2` on `[0, 1]` from `1/2`, the secant step through two residuals of the
same sign moves to `2`, outside the interval, and that is what the solver returns. -/
theorem C30_violated : ∃ (c : Cfg) (x0 : XR) (r : Solution),
    (∀ a b : ℝ, a ≤ b → ∃ u v j k : ℝ, c.func (fin a) = (fin u, fin j) ∧
      c.func (fin b) = (fin v, fin k) ∧ u ≤ v ∧ 0 ≤ j ∧ 0 ≤ k) ∧
    c.f_l = none ∧ c.f_u = none ∧ c.Mem x0 ∧ solve c x0 = .ok r ∧ ¬ c.Mem r.x := by
  obtain ⟨r, h1, h2, -⟩ := clip_run
  refine ⟨clipCfg, fin (1 / 2), r, ?_, rfl, rfl, ?_, h1, ?_⟩
  · intro a b hab
    refine ⟨min a 1, min b 1, if a < 1 then 1 else 0, if b < 1 then 1 else 0, rfl, rfl,
      min_le_min_right 1 hab, ?_, ?_⟩ <;> split_ifs <;> norm_num
  · simp only [Cfg.Mem, clipCfg]; norm_num
  · rw [h2]
    simp only [Cfg.Mem, clipCfg]
    norm_num

/-! ### C31 -/

/-- Value of the function at a point, as a real number. -/
def Cfg.val (c : Cfg) (x : XR) : ℝ := (c.func x).1.toReal

/-- The function is monotone on the initial interval (`σ = 1` increasing, `σ = -1` decreasing)
with finite values, and the second component of the function is a number with the sign of a
derivative of such a function. -/
structure Mono (σ : ℝ) (c : Cfg) : Prop where
  sgn : σ = 1 ∨ σ = -1
  fin : ∀ x, c.Mem x → ∃ v j : ℝ, c.func x = (fin v, fin j) ∧ 0 ≤ σ * j
  mono : ∀ x y, c.Mem x → c.Mem y → leb x y = true → σ * c.val x ≤ σ * c.val y

/-- Settings with which the library calls the solver: positive absolute tolerance, non-negative
total tolerance, no residuals at the ends given, and an interval that is not a single
infinity. -/
structure Std (c : Cfg) : Prop where
  atol_pos : 0 < c.atol
  tol_nonneg : 0 ≤ c.tol
  no_f_l : c.f_l = none
  no_f_u : c.f_u = none
  l_ne : c.x_l ≠ pinf
  u_ne : c.x_u ≠ ninf

theorem good_of_root {σ : ℝ} {c : Cfg} (hm : Mono σ c) (hs : Std c) {r : XR} (hr : c.Mem r)
    (hroot : (c.func r).1 = fin c.target) : Good σ c where
  sgn := hm.sgn
  atol_pos := hs.atol_pos
  tol_nonneg := hs.tol_nonneg
  no_f_l := hs.no_f_l
  no_f_u := hs.no_f_u
  l_ne := hs.l_ne
  u_ne := hs.u_ne
  val := hm.fin
  end_u := fun b v _ hmem hv => by
    have := hm.mono r c.x_u hr hmem hr.2
    simp only [Cfg.val, hroot, hv, toReal_fin] at this
    linarith
  end_l := fun b v _ hmem hv => by
    have := hm.mono c.x_l r hmem hr hr.1
    simp only [Cfg.val, hroot, hv, toReal_fin] at this
    linarith

/-- **C31**: for a monotone function, every solution in the initial interval is still in the
current interval after every iteration. -/
theorem C31 {σ : ℝ} {c : Cfg} (hm : Mono σ c) (hs : Std c) {r : XR} (hr : c.Mem r)
    (hroot : (c.func r).1 = fin c.target) {x0 : XR} {s : St} (h : Reaches c x0 s) :
    leb s.x_l r = true ∧ leb r s.x_u = true := by
  have hi := h.inv (good_of_root hm hs hr hroot)
  have hrn : r ≠ nan := leb_num_right hr.1
  have hml : c.Mem s.x_l := ⟨hi.l0, leb_trans (leb_trans hi.l1 hi.u1) hi.u0⟩
  have hmu : c.Mem s.x_u := ⟨leb_trans hi.l0 (leb_trans hi.l1 hi.u1), hi.u0⟩
  constructor
  · rcases hi.L with h | ⟨v, j, h1, h2, -⟩
    · rw [h]; exact hr.1
    · by_contra hcon
      have hle : leb r s.x_l = true :=
        leb_of_ltb (ltb_of_not_leb (leb_num_right hi.l0) hrn (by simpa using hcon))
      have := hm.mono r s.x_l hr hml hle
      unfold Cfg.At at h1
      simp only [Cfg.val, hroot, h1, toReal_fin] at this
      linarith
  · rcases hi.U with h | ⟨v, j, h1, h2, -⟩
    · rw [h]; exact hr.2
    · by_contra hcon
      have hle : leb s.x_u r = true :=
        leb_of_ltb (ltb_of_not_leb hrn (leb_num_left hi.u0) (by simpa using hcon))
      have := hm.mono s.x_u r hmu hr hle
      unfold Cfg.At at h1
      simp only [Cfg.val, hroot, h1, toReal_fin] at this
      linarith

/-- **C31**, at the end of a run: the current interval keeps the solution, and the returned
point lies in the initial interval (so C30 holds for monotone functions that attain the
target). -/
theorem C31_run {σ : ℝ} {c : Cfg} (hm : Mono σ c) (hs : Std c) {r : XR} (hr : c.Mem r)
    (hroot : (c.func r).1 = fin c.target) {x0 : XR} (hx : x0 ≠ nan) {sol : Solution}
    (h : solve c x0 = .ok sol) : c.Mem sol.x ∧ ∀ x ∈ sol.x_seq, c.Mem x :=
  C30_partial (good_of_root hm hs hr hroot) hx (leb_num_left hr.1) (leb_num_right hr.2) h

/-! ### C32 -/

/-- **C32**: `converged` holds iff the residual at the returned point is at most
`atol + rtol * target`; at most `max_iter` iterations are done, one recorded point per
iteration after the first, the returned point being the last one; `max_iter_reached` holds iff
all `max_iter` iterations were done; `no_change_stop` holds iff the last relative change is at
most `rtol`. -/
theorem C32_report {c : Cfg} {x0 : XR} {r : Solution} (h : solve c x0 = .ok r) :
    (r.converged = true ↔ leb (residual c r.x) (fin (c.atol + c.rtol * c.target)) = true) ∧
    r.n_iter ≤ c.max_iter ∧ r.x_seq.length = r.n_iter + 1 ∧ r.x_seq.getLast? = some r.x ∧
    (r.max_iter_reached = true ↔ r.n_iter = c.max_iter) ∧
    (r.no_change_stop = true ↔ leb (lastChange r.x_seq) (fin c.rtol) = true) := by
  obtain ⟨s, b, rfl, -⟩ := run_end h
  obtain ⟨lx, hlx⟩ := b.x_last
  obtain ⟨ln, hln⟩ := b.n_last
  obtain ⟨ld, hld⟩ := b.d_last
  refine ⟨?_, b.cnt, b.len, ?_, ?_, ?_⟩
  · simp [mkSolution, hln, b.nrm]
  · simp [mkSolution, hlx]
  · simp only [mkSolution, decide_eq_true_eq]
    have := b.cnt
    omega
  · simp [mkSolution, hld, b.dif]

/-- **C32**, last part, partial: when the run ends, one of the flags is set, provided the
residual and the last relative change are numbers and `rtol * target ≥ 0`.

Missing: functions that return `nan`, and negative targets, for which the claim is false
(`C32_unexplained_nan`, `C32_unexplained_negative`). -/
theorem C32_explained_partial {c : Cfg} {x0 : XR} {r : Solution} (h : solve c x0 = .ok r)
    (hn : residual c r.x ≠ nan) (hd : lastChange r.x_seq ≠ nan) (ht : 0 ≤ c.rtol * c.target) :
    r.converged = true ∨ r.max_iter_reached = true ∨ r.no_change_stop = true := by
  obtain ⟨hc, -, -, -, -, hn'⟩ := C32_report h
  rw [hc, hn']
  obtain ⟨s, b, rfl, hend⟩ := run_end h
  rcases hend with ⟨rfl, he⟩ | he
  · left
    have e : residual c (mkSolution c (init c x0)).x = (init c x0).norm := b.nrm.symm
    rw [e]
    refine leb_trans (leb_of_ltb he) ?_
    simp only [leb_fin, decide_eq_true_eq]
    linarith
  · have e1 : residual c (mkSolution c s).x = s.norm := b.nrm.symm
    have e2 : lastChange (mkSolution c s).x_seq = s.diff := b.dif.symm
    rw [e1] at hn ⊢
    rw [e2] at hd ⊢
    simp only [continues, Bool.and_eq_false_iff, decide_eq_false_iff_not] at he
    rcases he with (he | he) | he
    · exact .inl (leb_of_not_ltb (by simp) hn he)
    · exact .inr (.inl (by simpa [mkSolution] using he))
    · exact .inr (.inr (leb_of_not_ltb (by simp) hd he))

/-- **C32**: for the runs covered by C30 with `rtol * target ≥ 0` and at a finite iterate, the
stop is always explained. -/
theorem C32_explained_good {σ : ℝ} {c : Cfg} (hg : Good σ c) (ht : 0 ≤ c.rtol * c.target)
    {x0 : XR} (hx : x0 ≠ nan) (hl : c.x_l ≠ nan) (hu : c.x_u ≠ nan) {r : Solution}
    (h : solve c x0 = .ok r) :
    r.converged = true ∨ r.max_iter_reached = true ∨ r.no_change_stop = true := by
  have hm := C30_partial hg hx hl hu h
  refine C32_explained_partial h ?_ ?_ ht
  · obtain ⟨v, j, hv, -⟩ := hg.val _ hm.1
    simp [residual, hv]
  · have hne : ∀ x ∈ r.x_seq.reverse, x ≠ nan := fun x hx =>
      leb_num_right (hm.2 x (List.mem_reverse.mp hx)).1
    unfold lastChange
    cases hxs : r.x_seq.reverse with
    | nil => simp
    | cons a l =>
      cases l with
      | nil => simp
      | cons b l =>
        have ha := hne a (by simp [hxs])
        have hb := hne b (by simp [hxs])
        simp only
        split_ifs with hcase
        · simp
        · cases b with
          | nan => exact absurd rfl hb
          | pinf => simp at hcase
          | ninf => simp at hcase
          | fin b =>
            have hb0 : b ≠ 0 := by intro h0; simp [h0] at hcase
            cases a with
            | nan => exact absurd rfl ha
            | fin a => simp [npDiv, hb0]
            | pinf =>
              rcases lt_or_gt_of_ne hb0 with h0 | h0 <;>
                simp [HAdd.hAdd, Add.add, XR.add, npDiv, signedInf, hb0, h0, h0.not_gt]
            | ninf =>
              rcases lt_or_gt_of_ne hb0 with h0 | h0 <;>
                simp [HAdd.hAdd, Add.add, XR.add, npDiv, signedInf, hb0, h0, h0.not_gt]

/-- **C32** is false for functions returning `nan`: the loop is not entered and no flag is
set. -/
theorem C32_unexplained_nan : ∃ (c : Cfg) (x0 : XR) (r : Solution), Std c ∧
    0 ≤ c.rtol * c.target ∧ solve c x0 = .ok r ∧
    r.converged = false ∧ r.max_iter_reached = false ∧ r.no_change_stop = false := by
  let c : Cfg :=
    { func := fun _ => (nan, fin 0), target := 1, atol := 1 / 2, rtol := 0, max_iter := 100,
      x_l := fin 0, x_u := pinf }
  have hi : (init c (fin 0)) =
    { n_iter := 0, x := fin 0, f := nan, f_p := fin 0, x_l := fin 0, x_u := pinf, f_l := none,
      f_u := none, norm := nan, diff := fin 1, f_seq := [nan], x_seq := [fin 0],
      norm_seq := [nan], diff_seq := [fin 1] } := rfl
  have hb : bracketInit (init c (fin 0)) = .ok (init c (fin 0)) := by
    rw [hi]
    simp [bracketInit, signs, pos, negv, ltb, isZero]
  have hc : continues c (init c (fin 0)) = false := by
    rw [hi]; simp [continues, ltb]
  refine ⟨c, fin 0, mkSolution c (init c (fin 0)), ?_, ?_, ?_, ?_, ?_, ?_⟩
  · exact ⟨by simp [c], by simp [Cfg.tol, c], rfl, rfl, by simp [c], by simp [c]⟩
  · simp [c]
  · unfold solve
    have h1 : (ltb c.x_u (fin 0) || ltb (fin 0) c.x_l) = false := by simp [c, ltb]
    have h2 : ltb (init c (fin 0)).norm (fin c.atol) = false := by rw [hi]; simp [ltb]
    simp only [h1, h2, Bool.false_eq_true, if_false, hb, Except.bind]
    show (loop c 100 (init c (fin 0))).map (mkSolution c) = _
    simp [loop, hc, Except.map]
  · rw [hi]; simp [mkSolution, leb]
  · rw [hi]; simp [mkSolution, c]
  · rw [hi]; simp [mkSolution, c]

/-- **C32** is false for a negative target: the early return compares the residual with `atol`
only, while the report uses `atol + rtol * target`. -/
theorem C32_unexplained_negative : ∃ (c : Cfg) (x0 : XR) (r : Solution), 0 < c.atol ∧
    0 < c.rtol ∧ 0 ≤ c.tol ∧ residual c r.x ≠ nan ∧ solve c x0 = .ok r ∧
    r.converged = false ∧ r.max_iter_reached = false ∧ r.no_change_stop = false := by
  let c : Cfg :=
    { func := fun x => (x, fin 1), target := -1, atol := 1, rtol := 1 / 2, max_iter := 100,
      x_l := ninf, x_u := pinf }
  have hi : (init c (fin (-(1 / 4)))).norm = fin (3 / 4) := by
    simp only [init, c, neg_fin, fin_add_fin, abs_fin]
    norm_num
  refine ⟨c, fin (-(1 / 4)), mkSolution c (init c (fin (-(1 / 4)))), ?_, ?_, ?_, ?_, ?_, ?_, ?_, ?_⟩
  · simp [c]
  · simp [c]
  · simp only [Cfg.tol, c]; norm_num
  · simp [residual, mkSolution, init, c]
  · unfold solve
    have h1 : (ltb c.x_u (fin (-(1 / 4))) || ltb (fin (-(1 / 4))) c.x_l) = false := by
      simp [c, ltb]
    have h2 : ltb (init c (fin (-(1 / 4)))).norm (fin c.atol) = true := by
      rw [hi]; simp only [c, ltb_fin', decide_eq_true_eq]; norm_num
    simp only [h1, h2, Bool.false_eq_true, if_false, if_true]
  · have : (init c (fin (-(1 / 4)))).norm_seq = [(init c (fin (-(1 / 4)))).norm] := rfl
    simp only [mkSolution]
    rw [this, hi]
    simp only [List.getLastD, List.getLast, leb_fin, c, decide_eq_false_iff_not]
    norm_num
  · simp [mkSolution, c, init]
  · simp only [mkSolution, c, init, List.getLastD, List.getLast, leb_fin, decide_eq_false_iff_not]
    norm_num

/-! ### The hypotheses can be met -/

/-- Invert `2 * x` at `3` on `[0, +inf)`, from `x = 0`; the function is extended by a number at
the infinite end. -/
def lineCfg : Cfg :=
  { func := fun x => match x with | fin r => (fin (2 * r), fin 2) | _ => (fin 100, fin 0),
    target := 3, atol := 1 / 8, rtol := 1 / 8, max_iter := 100, x_l := fin 0, x_u := pinf }

theorem lineCfg_std : Std lineCfg :=
  ⟨by simp [lineCfg], by simp only [Cfg.tol, lineCfg]; norm_num, rfl, rfl, by simp [lineCfg],
    by simp [lineCfg]⟩

theorem lineCfg_good : Good 1 lineCfg where
  sgn := .inl rfl
  atol_pos := lineCfg_std.atol_pos
  tol_nonneg := lineCfg_std.tol_nonneg
  no_f_l := rfl
  no_f_u := rfl
  l_ne := lineCfg_std.l_ne
  u_ne := lineCfg_std.u_ne
  val := fun x _ => by
    cases x with
    | fin r => exact ⟨2 * r, 2, rfl, by norm_num⟩
    | pinf => exact ⟨100, 0, rfl, by norm_num⟩
    | ninf => exact ⟨100, 0, rfl, by norm_num⟩
    | nan => exact ⟨100, 0, rfl, by norm_num⟩
  end_u := fun b v hb => by simp [lineCfg] at hb
  end_l := fun a v _ _ hv => by simp [lineCfg] at hv

example : Good 1 lineCfg ∧ ∃ r, solve lineCfg (fin 0) = .ok r ∧ 1 < r.x_seq.length := by
  refine ⟨lineCfg_good, ?_⟩
  let s1 : St :=
    { n_iter := 0, x := fin 0, f := fin (-3), f_p := fin 2, x_l := fin 0,
      x_u := pinf, f_l := some (fin (-3)), f_u := none, norm := fin 3,
      diff := fin 1, f_seq := [fin (-3)], x_seq := [fin 0],
      norm_seq := [fin 3], diff_seq := [fin 1] }
  let s2 : St :=
    { n_iter := 1, x := fin (3 / 2), f := fin 0, f_p := fin 2, x_l := fin 0,
      x_u := pinf, f_l := some (fin (-3)), f_u := none, norm := fin 0,
      diff := fin 1, f_seq := [fin (-3), fin 0], x_seq := [fin 0, fin (3 / 2)],
      norm_seq := [fin 3, fin 0], diff_seq := [fin 1, fin 1] }
  have hi : bracketInit (init lineCfg (fin 0)) = .ok s1 := by
    simp only [init, lineCfg, s1, bracketInit, signs, pos, negv, zero_def]
    norm_num [leb, ltb]
  have n1 : nextX lineCfg s1 = fin (3 / 2) := by
    simp only [nextX, lineCfg, s1, newtonDx, isZero, npDiv]
    norm_num [leb]
  have t1 : step lineCfg s1 = .ok s2 := by
    unfold step
    rw [n1]
    simp only [evalAt, lineCfg, s1, s2, bracketLoop, signs, pos, negv, zero_def]
    norm_num [isZero, Except.map, record, isInf, npDiv]
  have c1 : continues lineCfg s1 = true := by
    simp only [continues, lineCfg, s1, Cfg.tol]; norm_num
  have c2 : continues lineCfg s2 = false := by
    simp only [continues, lineCfg, s2, Cfg.tol]; norm_num
  refine ⟨mkSolution lineCfg s2, ?_, by simp [mkSolution, s2]⟩
  unfold solve
  have hin : (ltb lineCfg.x_u (fin 0) || ltb (fin 0) lineCfg.x_l) = false := by
    simp [lineCfg, ltb]
  have hnm : ltb (init lineCfg (fin 0)).norm (fin lineCfg.atol) = false := by
    simp only [init, lineCfg]; norm_num
  simp only [hin, hnm, Bool.false_eq_true, if_false, hi, Except.bind]
  show (loop lineCfg 100 s1).map _ = _
  simp [loop, c1, c2, t1, Except.bind, Except.map]

example : ∃ c : Cfg, Mono 1 c ∧ Std c ∧ c.Mem (fin 1) ∧ (c.func (fin 1)).1 = fin c.target ∧
    ∃ s, Reaches c (fin 2) s ∧ s.x_u = fin 2 := by
  let c : Cfg :=
    { func := fun x => match x with | fin r => (fin r, fin 1) | _ => (fin 9, fin 0),
      target := 1, atol := 1 / 8, rtol := 1 / 8, max_iter := 100, x_l := fin 0, x_u := fin 3 }
  refine ⟨c, ⟨.inl rfl, ?_, ?_⟩, ⟨by simp [c], by simp only [Cfg.tol, c]; norm_num, rfl, rfl,
    by simp [c], by simp [c]⟩, by simp only [Cfg.Mem, c]; norm_num, rfl, ?_⟩
  · intro x hx
    cases x with
    | fin r => exact ⟨r, 1, rfl, by norm_num⟩
    | pinf => exact ⟨9, 0, rfl, by norm_num⟩
    | ninf => exact ⟨9, 0, rfl, by norm_num⟩
    | nan => exact ⟨9, 0, rfl, by norm_num⟩
  · intro x y hx hy hxy
    cases x <;> cases y <;> simp_all [Cfg.Mem, leb, c, Cfg.val]
  · let s1 : St :=
      { n_iter := 0, x := fin 2, f := fin 1, f_p := fin 1, x_l := fin 0,
        x_u := fin 2, f_l := none, f_u := some (fin 1), norm := fin 1,
        diff := fin 1, f_seq := [fin 1], x_seq := [fin 2],
        norm_seq := [fin 1], diff_seq := [fin 1] }
    refine ⟨s1, .start ?_ ?_ ?_, rfl⟩
    · simp only [Cfg.Mem, c]; norm_num
    · simp only [init, c]; norm_num
    · simp only [init, c, s1, bracketInit, signs, pos, negv, zero_def]
      norm_num [leb, ltb]

end Solver

end

end Verif
