import Verif.Solver.Spec
import Mathlib.Tactic.FieldSimp
import Mathlib.Tactic.Ring
import Mathlib.Tactic.Positivity

/-!
# Helper lemmas on the solver
-/

namespace Verif

open XR

noncomputable section

namespace Solver

/-! ### The loop -/

theorem loop_inv (c : Cfg) {P : St → Prop}
    (hstep : ∀ s s', P s → continues c s = true → step c s = .ok s' → P s') :
    ∀ (fuel : ℕ) (s s' : St), P s → loop c fuel s = .ok s' → P s' := by
  intro fuel
  induction fuel with
  | zero => intro s s' hs h; simp only [loop, Except.ok.injEq] at h; exact h ▸ hs
  | succ n ih =>
    intro s s' hs h
    unfold loop at h
    by_cases hc : continues c s = true
    · rw [if_pos hc] at h
      cases hst : step c s with
      | error e => rw [hst] at h; simp [Except.bind] at h
      | ok t =>
        rw [hst] at h
        exact ih t s' (hstep s t hs hc hst) h
    · rw [if_neg hc] at h
      simp only [Except.ok.injEq] at h
      exact h ▸ hs

/-- The fields that `bracketLoop` leaves alone. -/
theorem bracketLoop_keeps {s s' : St} (h : bracketLoop s = .ok s') :
    s'.x = s.x ∧ s'.f = s.f ∧ s'.f_p = s.f_p ∧ s'.n_iter = s.n_iter ∧
    s'.f_seq = s.f_seq ∧ s'.x_seq = s.x_seq ∧ s'.norm_seq = s.norm_seq ∧
    s'.diff_seq = s.diff_seq := by
  unfold bracketLoop signs at h
  split_ifs at h <;> simp only [Except.ok.injEq] at h <;> subst h <;>
    exact ⟨rfl, rfl, rfl, rfl, rfl, rfl, rfl, rfl⟩

theorem bracketInit_keeps {s s' : St} (h : bracketInit s = .ok s') :
    s'.x = s.x ∧ s'.f = s.f ∧ s'.f_p = s.f_p ∧ s'.n_iter = s.n_iter ∧
    s'.f_seq = s.f_seq ∧ s'.x_seq = s.x_seq ∧ s'.norm_seq = s.norm_seq ∧
    s'.diff_seq = s.diff_seq ∧ s'.norm = s.norm ∧ s'.diff = s.diff := by
  unfold bracketInit signs at h
  split_ifs at h <;> simp only [Except.ok.injEq] at h <;> subst h <;>
    exact ⟨rfl, rfl, rfl, rfl, rfl, rfl, rfl, rfl, rfl, rfl⟩

theorem step_ok {c : Cfg} {s s' : St} (h : step c s = .ok s') :
    ∃ t, bracketLoop (evalAt c s (nextX c s)) = .ok t ∧ s' = record s.x t := by
  unfold step at h
  cases hb : bracketLoop (evalAt c s (nextX c s)) with
  | error e => rw [hb] at h; simp [Except.map] at h
  | ok t =>
    rw [hb] at h
    simp only [Except.map, Except.ok.injEq] at h
    exact ⟨t, rfl, h.symm⟩

theorem step_n_iter {c : Cfg} {s s' : St} (h : step c s = .ok s') :
    s'.n_iter = s.n_iter + 1 := by
  obtain ⟨t, ht, rfl⟩ := step_ok h
  simp [record, (bracketLoop_keeps ht).2.2.2.1, evalAt]

theorem step_x {c : Cfg} {s s' : St} (h : step c s = .ok s') : s'.x = nextX c s := by
  obtain ⟨t, ht, rfl⟩ := step_ok h
  simp [record, (bracketLoop_keeps ht).1, evalAt]

theorem step_f {c : Cfg} {s s' : St} (h : step c s = .ok s') :
    s'.f = (c.func (nextX c s)).1 + -(fin c.target) := by
  obtain ⟨t, ht, rfl⟩ := step_ok h
  simp [record, (bracketLoop_keeps ht).2.1, evalAt]

theorem step_f_p {c : Cfg} {s s' : St} (h : step c s = .ok s') :
    s'.f_p = (c.func (nextX c s)).2 := by
  obtain ⟨t, ht, rfl⟩ := step_ok h
  simp [record, (bracketLoop_keeps ht).2.2.1, evalAt]

theorem step_seq {c : Cfg} {s s' : St} (h : step c s = .ok s') :
    s'.x_seq = s.x_seq ++ [s'.x] ∧ s'.f_seq = s.f_seq ++ [s'.f] ∧
    s'.norm_seq = s.norm_seq ++ [s'.norm] ∧ s'.diff_seq = s.diff_seq ++ [s'.diff] := by
  obtain ⟨t, ht, rfl⟩ := step_ok h
  obtain ⟨-, -, -, -, h1, h2, h3, h4⟩ := bracketLoop_keeps ht
  simp [record, h1, h2, h3, h4, evalAt]

theorem step_norm {c : Cfg} {s s' : St} (h : step c s = .ok s') : s'.norm = s'.f.abs := by
  obtain ⟨t, ht, rfl⟩ := step_ok h
  simp [record]

/-- With at least `max_iter - n_iter` rounds of fuel the loop ends because its condition is
false. -/
theorem loop_stops (c : Cfg) :
    ∀ (fuel : ℕ) (s s' : St), c.max_iter ≤ s.n_iter + fuel → loop c fuel s = .ok s' →
      continues c s' = false := by
  intro fuel
  induction fuel with
  | zero =>
    intro s s' hf h
    simp only [loop, Except.ok.injEq] at h
    subst h
    simp only [Nat.add_zero] at hf
    simp [continues, Nat.not_lt.mpr hf]
  | succ n ih =>
    intro s s' hf h
    unfold loop at h
    by_cases hc : continues c s = true
    · rw [if_pos hc] at h
      cases hst : step c s with
      | error e => rw [hst] at h; simp [Except.bind] at h
      | ok t =>
        rw [hst] at h
        refine ih t s' ?_ h
        rw [step_n_iter hst]; omega
    · rw [if_neg hc] at h
      simp only [Except.ok.injEq] at h
      subst h
      simpa using hc

/-- The successful outcomes of `solve`. -/
theorem solve_ok {c : Cfg} {x0 : XR} {r : Solution} (h : solve c x0 = .ok r) :
    (ltb c.x_u x0 = false ∧ ltb x0 c.x_l = false) ∧
    ((ltb (init c x0).norm (fin c.atol) = true ∧ r = mkSolution c (init c x0)) ∨
      (ltb (init c x0).norm (fin c.atol) = false ∧
        ∃ s1 s2, bracketInit (init c x0) = .ok s1 ∧ loop c c.max_iter s1 = .ok s2 ∧
        r = mkSolution c s2)) := by
  unfold solve at h
  by_cases h1 : (ltb c.x_u x0 || ltb x0 c.x_l) = true
  · simp [h1] at h
  · simp only [h1, Bool.false_eq_true, if_false] at h
    refine ⟨by simpa using h1, ?_⟩
    by_cases h2 : ltb (init c x0).norm (fin c.atol) = true
    · simp only [h2, if_true, Except.ok.injEq] at h
      exact .inl ⟨h2, h.symm⟩
    · simp only [h2, Bool.false_eq_true, if_false] at h
      refine .inr ⟨by simpa using h2, ?_⟩
      cases hb : bracketInit (init c x0) with
      | error e => simp [hb, Except.bind] at h
      | ok s1 =>
        cases hl : loop c c.max_iter s1 with
        | error e => simp [hb, hl, Except.bind, Except.map] at h
        | ok s2 =>
          simp only [hb, hl, Except.bind, Except.map, Except.ok.injEq] at h
          exact ⟨s1, s2, rfl, hl, h.symm⟩

/-! ### The bracket update in terms of the sign of `f * f_p` -/

theorem signs_eq {s : St} {a j : ℝ} (hf : s.f = fin a) (hj : s.f_p = fin j)
    (hl : leb s.x_l s.x = true) (hu : leb s.x s.x_u = true) :
    signs s = if 0 < a * j then some { s with x_u := s.x, f_u := some (fin a) }
      else if a * j < 0 then some { s with x_l := s.x, f_l := some (fin a) }
      else none := by
  unfold signs pos negv
  rw [hf, hj, hl, hu]
  simp only [zero_def, ltb_fin', Bool.and_true, Bool.and_eq_true, decide_eq_true_eq]
  rcases lt_trichotomy a 0 with ha | ha | ha <;> rcases lt_trichotomy j 0 with hj' | hj' | hj'
  · have := mul_pos_of_neg_of_neg ha hj'
    simp [ha, hj', this, ha.not_gt, hj'.not_gt]
  · simp [hj']
  · have := mul_neg_of_neg_of_pos ha hj'
    simp [ha, hj', this, this.not_gt, ha.not_gt]
  · simp [ha]
  · simp [ha]
  · simp [ha]
  · have := mul_neg_of_pos_of_neg ha hj'
    simp [ha, hj', this, this.not_gt, ha.not_gt, hj'.not_gt]
  · simp [hj']
  · have := mul_pos ha hj'
    simp [ha, hj', this]

/-! ### The bracketing invariant -/

/-- Value and derivative at a point. -/
def Cfg.At (c : Cfg) (x : XR) (v j : ℝ) : Prop := c.func x = (fin v, fin j)

theorem Cfg.At.unique {c : Cfg} {x : XR} {v j v' j' : ℝ} (h : c.At x v j) (h' : c.At x v' j') :
    v = v' ∧ j = j' := by
  unfold Cfg.At at *
  rw [h] at h'
  simpa using h'

structure Inv (σ : ℝ) (c : Cfg) (s : St) : Prop where
  l0 : leb c.x_l s.x_l = true
  l1 : leb s.x_l s.x = true
  u1 : leb s.x s.x_u = true
  u0 : leb s.x_u c.x_u = true
  cur : ∃ v j : ℝ, c.At s.x v j ∧ s.f = fin (v - c.target) ∧ s.f_p = fin j
  U : s.x_u = c.x_u ∨ ∃ v j : ℝ, c.At s.x_u v j ∧ 0 < σ * (v - c.target) ∧ 0 < σ * j
  L : s.x_l = c.x_l ∨ ∃ v j : ℝ, c.At s.x_l v j ∧ σ * (v - c.target) < 0 ∧ 0 < σ * j
  fu : ∀ w, s.f_u = some w → ∃ v j : ℝ, c.At s.x_u v j ∧ w = fin (v - c.target) ∧
    (0 < σ * (v - c.target) ∨ j = 0 ∧ s.x_u = c.x_u) ∧ (v - c.target = 0 → s.f = fin 0)
  fl : ∀ w, s.f_l = some w → ∃ v j : ℝ, c.At s.x_l v j ∧ w = fin (v - c.target) ∧
    (σ * (v - c.target) < 0 ∨ j = 0 ∧ s.x_l = c.x_l) ∧ (v - c.target = 0 → s.f = fin 0)
  nrm : s.norm = s.f.abs
  xs : ∀ x ∈ s.x_seq, c.Mem x

theorem Inv.mem {σ : ℝ} {c : Cfg} {s : St} (h : Inv σ c s) : c.Mem s.x :=
  ⟨leb_trans h.l0 h.l1, leb_trans h.u1 h.u0⟩

/-- The bracket part of the invariant, kept by an update at a new point of the bracket. -/
structure Bra (σ : ℝ) (c : Cfg) (x_l x_u : XR) (f_l f_u : Option XR) : Prop where
  l0 : leb c.x_l x_l = true
  u0 : leb x_u c.x_u = true
  U : x_u = c.x_u ∨ ∃ v j : ℝ, c.At x_u v j ∧ 0 < σ * (v - c.target) ∧ 0 < σ * j
  L : x_l = c.x_l ∨ ∃ v j : ℝ, c.At x_l v j ∧ σ * (v - c.target) < 0 ∧ 0 < σ * j
  fu : ∀ w, f_u = some w → ∃ v j : ℝ, c.At x_u v j ∧ w = fin (v - c.target) ∧
    (0 < σ * (v - c.target) ∨ j = 0 ∧ x_u = c.x_u) ∧ v - c.target ≠ 0
  fl : ∀ w, f_l = some w → ∃ v j : ℝ, c.At x_l v j ∧ w = fin (v - c.target) ∧
    (σ * (v - c.target) < 0 ∨ j = 0 ∧ x_l = c.x_l) ∧ v - c.target ≠ 0

theorem pos_of_sgn {σ a j : ℝ} (hj : 0 ≤ σ * j) (h : 0 < a * j) (hs : σ = 1 ∨ σ = -1) :
    0 < σ * a ∧ 0 < σ * j := by
  rcases hs with rfl | rfl
  · have : 0 < j := by
      rcases (by linarith : 0 ≤ j).eq_or_lt with h0 | h0
      · rw [← h0] at h; simp at h
      · exact h0
    exact ⟨by by_contra hc; nlinarith [mul_nonneg (show 0 ≤ -a by linarith) this.le], by linarith⟩
  · have : j < 0 := by
      rcases (by linarith : j ≤ 0).eq_or_lt with h0 | h0
      · rw [h0] at h; simp at h
      · exact h0
    exact ⟨by by_contra hc; nlinarith [mul_nonneg (show 0 ≤ a by linarith) (neg_nonneg.mpr this.le)], by linarith⟩

theorem neg_of_sgn {σ a j : ℝ} (hj : 0 ≤ σ * j) (h : a * j < 0) (hs : σ = 1 ∨ σ = -1) :
    σ * a < 0 ∧ 0 < σ * j := by
  have := pos_of_sgn (a := -a) hj (by linarith) hs
  exact ⟨by linarith [this.1], this.2⟩

theorem Inv.bra {σ : ℝ} {c : Cfg} {s : St} (h : Inv σ c s) (hf : s.f ≠ fin 0) :
    Bra σ c s.x_l s.x_u s.f_l s.f_u where
  l0 := h.l0
  u0 := h.u0
  U := h.U
  L := h.L
  fu := fun w hw => by
    obtain ⟨v, j, h1, h2, h3, h4⟩ := h.fu w hw
    exact ⟨v, j, h1, h2, h3, fun h0 => hf (h4 h0)⟩
  fl := fun w hw => by
    obtain ⟨v, j, h1, h2, h3, h4⟩ := h.fl w hw
    exact ⟨v, j, h1, h2, h3, fun h0 => hf (h4 h0)⟩

theorem ne_zero_of_continues {c : Cfg} {s : St} (ht : 0 ≤ c.tol) (hn : s.norm = s.f.abs)
    (hc : continues c s = true) : s.f ≠ fin 0 := by
  intro h
  simp only [continues, Bool.and_eq_true] at hc
  have := hc.1.1
  rw [hn, h] at this
  simp only [abs_fin, abs_zero, ltb_fin', decide_eq_true_eq] at this
  linarith

/-- The secant point lies between the ends when the residuals there have opposite signs. -/
theorem secant_mem {σ a b wu wl : ℝ} (hs : σ = 1 ∨ σ = -1) (hab : a ≤ b)
    (hu : 0 < σ * wu) (hl : σ * wl < 0) :
    a ≤ b + -(wu * (b + -a) / (wu + -wl)) ∧ b + -(wu * (b + -a) / (wu + -wl)) ≤ b := by
  have key : 0 ≤ wu / (wu + -wl) ∧ wu / (wu + -wl) ≤ 1 := by
    rcases hs with rfl | rfl
    · have h1 : 0 < wu + -wl := by linarith
      exact ⟨div_nonneg (by linarith) h1.le, (div_le_one h1).mpr (by linarith)⟩
    · have h1 : 0 < -(wu + -wl) := by linarith
      rw [← neg_div_neg_eq]
      exact ⟨div_nonneg (by linarith) h1.le, (div_le_one h1).mpr (by linarith)⟩
  have e : wu * (b + -a) / (wu + -wl) = wu / (wu + -wl) * (b - a) := by ring
  rw [e]
  have h0 : 0 ≤ b - a := by linarith
  constructor <;> nlinarith [mul_nonneg key.1 h0, mul_le_mul_of_nonneg_right key.2 h0]

theorem newtonDx_fin {c : Cfg} {s : St} {a j : ℝ} (ha : 0 < c.atol) (hf : s.f = fin a)
    (hj : s.f_p = fin j) : newtonDx c s = fin (if j = 0 then -a / c.atol else -a / j) := by
  unfold newtonDx
  rw [hf, hj]
  by_cases h0 : j = 0
  · simp [isZero, h0, npDiv, ha.ne']
  · simp [isZero, h0, npDiv]

theorem secant_case {σ : ℝ} {c : Cfg} {x_l x_u : XR} {f_l f_u : Option XR} (hg : Good σ c)
    (hb : Bra σ c x_l x_u f_l f_u) (hlu : leb x_l x_u = true) {wu wl : XR}
    (hu : f_u = some wu) (hl : f_l = some wl) :
    let y := if x_u.isInf then
          if x_l.isInf then fin 0 else x_l + fin 2 * x_l.abs
        else if x_l.isInf then x_u + -(fin 2 * x_u.abs)
        else x_u + -(npDiv (wu * (x_u + -x_l)) (wu + -wl))
    leb x_l y = true ∧ leb y x_u = true := by
  obtain ⟨vu, ju, hu1, hu2, hu3, hu4⟩ := hb.fu wu hu
  obtain ⟨vl, jl, hl1, hl2, hl3, hl4⟩ := hb.fl wl hl
  have hl_ne : x_l ≠ nan := leb_num_left hlu
  have hu_ne : x_u ≠ nan := leb_num_right hlu
  -- the ends cannot coincide at an infinity
  have hmemU : c.Mem x_u := ⟨leb_trans hb.l0 hlu, hb.u0⟩
  have hmemL : c.Mem x_l := ⟨hb.l0, leb_trans hlu hb.u0⟩
  have hxu : x_u ≠ ninf := by
    rintro rfl
    have hxl : x_l = ninf := leb_antisymm hlu (ninf_leb hl_ne)
    subst hxl
    obtain ⟨rfl, rfl⟩ := hu1.unique hl1
    rcases hb.U with h | ⟨v, j, h1, h2, h3⟩
    · exact hg.u_ne h.symm
    · obtain ⟨rfl, rfl⟩ := hu1.unique h1
      rcases hl3 with h | ⟨h, -⟩
      · linarith
      · rw [h] at h3; simp at h3
  have hxl : x_l ≠ pinf := by
    rintro rfl
    have hxu' : x_u = pinf := leb_antisymm (leb_pinf hu_ne) hlu
    subst hxu'
    obtain ⟨rfl, rfl⟩ := hu1.unique hl1
    rcases hb.L with h | ⟨v, j, h1, h2, h3⟩
    · exact hg.l_ne h.symm
    · obtain ⟨rfl, rfl⟩ := hu1.unique h1
      rcases hu3 with h | ⟨h, -⟩
      · linarith
      · rw [h] at h3; simp at h3
  intro y
  cases x_u with
  | nan => exact absurd rfl hu_ne
  | ninf => exact absurd rfl hxu
  | pinf =>
    cases x_l with
    | nan => exact absurd rfl hl_ne
    | pinf => exact absurd rfl hxl
    | ninf => simp [y, isInf, leb]
    | fin a =>
      simp only [y, isInf, if_true, Bool.false_eq_true, if_false, abs_fin, fin_mul_fin,
        fin_add_fin, leb, decide_eq_true_eq, and_true]
      linarith [abs_nonneg a]
  | fin b =>
    cases x_l with
    | nan => exact absurd rfl hl_ne
    | pinf => exact absurd rfl hxl
    | ninf =>
      simp only [y, isInf, if_true, Bool.false_eq_true, if_false, abs_fin, fin_mul_fin, neg_fin,
        fin_add_fin, leb, decide_eq_true_eq, true_and]
      linarith [abs_nonneg b]
    | fin a =>
      have hab : a ≤ b := by simpa [leb] using hlu
      have hwu : 0 < σ * (vu - c.target) := by
        rcases hu3 with h | ⟨h0, hx⟩
        · exact h
        · have := hg.end_u b vu hx.symm (hx ▸ hmemU) (by rw [← hx]; rw [h0] at hu1; exact hu1)
          rcases this.eq_or_lt with h | h
          · rcases hg.sgn with rfl | rfl <;> exact absurd (by linarith) hu4
          · exact h
      have hwl : σ * (vl - c.target) < 0 := by
        rcases hl3 with h | ⟨h0, hx⟩
        · exact h
        · have := hg.end_l a vl hx.symm (hx ▸ hmemL) (by rw [← hx]; rw [h0] at hl1; exact hl1)
          rcases this.eq_or_lt with h | h
          · rcases hg.sgn with rfl | rfl <;> exact absurd (by linarith) hl4
          · exact h
      have hne : (vu - c.target) + -(vl - c.target) ≠ 0 := by
        intro h
        rcases hg.sgn with rfl | rfl <;> linarith
      have := secant_mem hg.sgn hab hwu hwl
      simp only [y, isInf, Bool.false_eq_true, if_false, hu2, hl2, neg_fin, fin_add_fin,
        fin_mul_fin, npDiv_fin _ hne, leb_fin, decide_eq_true_eq]
      exact this

theorem nextX_mem {σ : ℝ} {c : Cfg} {s : St} (hg : Good σ c) (h : Inv σ c s)
    (hf0 : s.f ≠ fin 0) :
    leb s.x_l (nextX c s) = true ∧ leb (nextX c s) s.x_u = true := by
  obtain ⟨v, j, hat, hf, hj⟩ := h.cur
  have hlu : leb s.x_l s.x_u = true := leb_trans h.l1 h.u1
  have hl_ne : s.x_l ≠ nan := leb_num_left hlu
  have hu_ne : s.x_u ≠ nan := leb_num_right hlu
  have hx_ne : s.x ≠ nan := leb_num_right h.l1
  have hdx := newtonDx_fin hg.atol_pos hf hj
  unfold nextX
  simp only
  by_cases hc : (leb s.x_u (s.x + newtonDx c s) || leb (s.x + newtonDx c s) s.x_l) = true
  · rw [if_pos hc]
    cases hu : s.f_u with
    | none => exact ⟨hlu, leb_refl hu_ne⟩
    | some wu =>
      cases hl : s.f_l with
      | none => exact ⟨leb_refl hl_ne, hlu⟩
      | some wl => exact secant_case hg (h.bra hf0) hlu hu hl
  · rw [if_neg hc]
    simp only [Bool.or_eq_true, not_or, Bool.not_eq_true] at hc
    have hnn : s.x + newtonDx c s ≠ nan := by
      rw [hdx]
      cases hx : s.x with
      | nan => exact absurd hx hx_ne
      | fin r => simp
      | pinf => simp [HAdd.hAdd, Add.add, XR.add]
      | ninf => simp [HAdd.hAdd, Add.add, XR.add]
    exact ⟨leb_of_ltb (ltb_of_not_leb hnn hl_ne hc.2), leb_of_ltb (ltb_of_not_leb hu_ne hnn hc.1)⟩

/-- Fields set by the bracket update. -/
def Upd (s t : St) : Prop :=
  ∃ (a j : ℝ), s.f = fin a ∧ s.f_p = fin j ∧
    ((0 < a * j ∧ t = { s with x_u := s.x, f_u := some (fin a) }) ∨
     (a * j < 0 ∧ t = { s with x_l := s.x, f_l := some (fin a) }) ∨
     (a * j = 0 ∧ t = s) ∨
     (j = 0 ∧ s.x = s.x_u ∧ t = { s with f_u := some (fin a) }) ∨
     (j = 0 ∧ s.x = s.x_l ∧ t = { s with f_l := some (fin a) }))

theorem bracketLoop_upd {s t : St} {a j : ℝ} (hf : s.f = fin a) (hj : s.f_p = fin j)
    (hl : leb s.x_l s.x = true) (hu : leb s.x s.x_u = true) (h : bracketLoop s = .ok t) :
    Upd s t := by
  refine ⟨a, j, hf, hj, ?_⟩
  unfold bracketLoop at h
  rw [signs_eq hf hj hl hu] at h
  by_cases h1 : 0 < a * j
  · rw [if_pos h1] at h
    simp only [Except.ok.injEq] at h
    exact .inl ⟨h1, h.symm⟩
  rw [if_neg h1] at h
  by_cases h2 : a * j < 0
  · rw [if_pos h2] at h
    simp only [Except.ok.injEq] at h
    exact .inr (.inl ⟨h2, h.symm⟩)
  have h0 : a * j = 0 := le_antisymm (not_lt.mp h1) (not_lt.mp h2)
  rw [if_neg h2] at h
  simp only [hf, hj, isZero, decide_eq_true_eq] at h
  by_cases hj0 : j = 0
  · rw [if_pos hj0] at h
    by_cases hxu : eqb s.x s.x_u = true
    · rw [if_pos hxu] at h
      simp only [Except.ok.injEq] at h
      exact .inr (.inr (.inr (.inl ⟨hj0, (eqb_iff.mp hxu).1, by rw [← h, hf, hj]⟩)))
    · rw [if_neg hxu] at h
      by_cases hxl : eqb s.x s.x_l = true
      · rw [if_pos hxl] at h
        simp only [Except.ok.injEq] at h
        exact .inr (.inr (.inr (.inr ⟨hj0, (eqb_iff.mp hxl).1, by rw [← h, hf, hj]⟩)))
      · rw [if_neg hxl] at h
        simp only [Except.ok.injEq] at h
        exact .inr (.inr (.inl ⟨h0, h.symm⟩))
  · rw [if_neg hj0] at h
    split_ifs at h
    simp only [Except.ok.injEq] at h
    exact .inr (.inr (.inl ⟨h0, h.symm⟩))

theorem bracketInit_upd {s t : St} {a j : ℝ} (hf : s.f = fin a) (hj : s.f_p = fin j)
    (hl : leb s.x_l s.x = true) (hu : leb s.x s.x_u = true) (h : bracketInit s = .ok t) :
    Upd s t := by
  refine ⟨a, j, hf, hj, ?_⟩
  unfold bracketInit at h
  rw [signs_eq hf hj hl hu] at h
  by_cases h1 : 0 < a * j
  · rw [if_pos h1] at h
    simp only [Except.ok.injEq] at h
    exact .inl ⟨h1, h.symm⟩
  rw [if_neg h1] at h
  by_cases h2 : a * j < 0
  · rw [if_pos h2] at h
    simp only [Except.ok.injEq] at h
    exact .inr (.inl ⟨h2, h.symm⟩)
  have h0 : a * j = 0 := le_antisymm (not_lt.mp h1) (not_lt.mp h2)
  rw [if_neg h2] at h
  simp only at h
  split_ifs at h
  simp only [Except.ok.injEq] at h
  exact .inr (.inr (.inl ⟨h0, h.symm⟩))

/-- An update at a point of the bracket keeps the invariant. -/
theorem Upd.inv {σ : ℝ} {c : Cfg} {s t : St} (hg : Good σ c) (hu : Upd s t)
    (hb : Bra σ c s.x_l s.x_u s.f_l s.f_u)
    (hl1 : leb s.x_l s.x = true) (hu1 : leb s.x s.x_u = true)
    {v j : ℝ} (hat : c.At s.x v j) (hf : s.f = fin (v - c.target)) (hfp : s.f_p = fin j)
    (hxs : ∀ x ∈ s.x_seq, c.Mem x) (r : St → St)
    (hr : ∀ u, (r u).x = u.x ∧ (r u).f = u.f ∧ (r u).f_p = u.f_p ∧ (r u).x_l = u.x_l ∧
      (r u).x_u = u.x_u ∧ (r u).f_l = u.f_l ∧ (r u).f_u = u.f_u)
    (hrn : (r t).norm = t.f.abs) (hrs : ∀ x ∈ (r t).x_seq, x ∈ s.x_seq ∨ x = s.x) :
    Inv σ c (r t) := by
  obtain ⟨e1, e2, e3, e4, e5, e6, e7⟩ := hr t
  have hmem : c.Mem s.x := ⟨leb_trans hb.l0 hl1, leb_trans hu1 hb.u0⟩
  have hx_ne : s.x ≠ nan := leb_num_right hl1
  obtain ⟨v', j', hv', hσ⟩ := hg.val s.x hmem
  obtain ⟨rfl, rfl⟩ := hat.unique (show c.At s.x v' j' from hv')
  have hseq : ∀ x ∈ (r t).x_seq, c.Mem x := by
    intro x hx
    rcases hrs x hx with h | rfl
    · exact hxs x h
    · exact hmem
  have wfu : ∀ w, s.f_u = some w → ∃ v j : ℝ, c.At s.x_u v j ∧ w = fin (v - c.target) ∧
      (0 < σ * (v - c.target) ∨ j = 0 ∧ s.x_u = c.x_u) ∧ (v - c.target = 0 → s.f = fin 0) := by
    intro w hw
    obtain ⟨v, j, h1, h2, h3, h4⟩ := hb.fu w hw
    exact ⟨v, j, h1, h2, h3, fun h => absurd h h4⟩
  have wfl : ∀ w, s.f_l = some w → ∃ v j : ℝ, c.At s.x_l v j ∧ w = fin (v - c.target) ∧
      (σ * (v - c.target) < 0 ∨ j = 0 ∧ s.x_l = c.x_l) ∧ (v - c.target = 0 → s.f = fin 0) := by
    intro w hw
    obtain ⟨v, j, h1, h2, h3, h4⟩ := hb.fl w hw
    exact ⟨v, j, h1, h2, h3, fun h => absurd h h4⟩
  obtain ⟨a, j1, ha, hj1, hcase⟩ := hu
  rw [hf] at ha
  rw [hfp] at hj1
  simp only [XR.fin.injEq] at ha hj1
  subst ha hj1
  rcases hcase with ⟨hp, rfl⟩ | ⟨hp, rfl⟩ | ⟨hp, rfl⟩ | ⟨hp, hx, rfl⟩ | ⟨hp, hx, rfl⟩
  · obtain ⟨p1, p2⟩ := pos_of_sgn hσ hp hg.sgn
    exact {
      l0 := by rw [e4]; exact hb.l0
      l1 := by rw [e4, e1]; exact hl1
      u1 := by rw [e5, e1]; exact leb_refl hx_ne
      u0 := by rw [e5]; exact hmem.2
      cur := by rw [e1, e2, e3]; exact ⟨v, j, hat, hf, hfp⟩
      U := by rw [e5]; exact .inr ⟨v, j, hat, p1, p2⟩
      L := by rw [e4]; exact hb.L
      fu := by
        rw [e7, e5, e2]
        intro w hw
        simp only [Option.some.injEq] at hw
        exact ⟨v, j, hat, hw.symm, .inl p1, fun h => by rw [h] at p1; simp at p1⟩
      fl := by rw [e6, e4, e2]; exact wfl
      nrm := by rw [hrn, e2]
      xs := hseq }
  · obtain ⟨p1, p2⟩ := neg_of_sgn hσ hp hg.sgn
    exact {
      l0 := by rw [e4]; exact hmem.1
      l1 := by rw [e4, e1]; exact leb_refl hx_ne
      u1 := by rw [e5, e1]; exact hu1
      u0 := by rw [e5]; exact hb.u0
      cur := by rw [e1, e2, e3]; exact ⟨v, j, hat, hf, hfp⟩
      U := by rw [e5]; exact hb.U
      L := by rw [e4]; exact .inr ⟨v, j, hat, p1, p2⟩
      fu := by rw [e7, e5, e2]; exact wfu
      fl := by
        rw [e6, e4, e2]
        intro w hw
        simp only [Option.some.injEq] at hw
        exact ⟨v, j, hat, hw.symm, .inl p1, fun h => by rw [h] at p1; simp at p1⟩
      nrm := by rw [hrn, e2]
      xs := hseq }
  · exact {
      l0 := by rw [e4]; exact hb.l0
      l1 := by rw [e4, e1]; exact hl1
      u1 := by rw [e5, e1]; exact hu1
      u0 := by rw [e5]; exact hb.u0
      cur := by rw [e1, e2, e3]; exact ⟨v, j, hat, hf, hfp⟩
      U := by rw [e5]; exact hb.U
      L := by rw [e4]; exact hb.L
      fu := by rw [e7, e5, e2]; exact wfu
      fl := by rw [e6, e4, e2]; exact wfl
      nrm := by rw [hrn, e2]
      xs := hseq }
  · have hU : s.x_u = c.x_u := by
      rcases hb.U with h | ⟨v', j', h1, h2, h3⟩
      · exact h
      · rw [← hx] at h1
        obtain ⟨rfl, rfl⟩ := hat.unique h1
        rw [hp] at h3; simp at h3
    exact {
      l0 := by rw [e4]; exact hb.l0
      l1 := by rw [e4, e1]; exact hl1
      u1 := by rw [e5, e1]; exact hu1
      u0 := by rw [e5]; exact hb.u0
      cur := by rw [e1, e2, e3]; exact ⟨v, j, hat, hf, hfp⟩
      U := by rw [e5]; exact hb.U
      L := by rw [e4]; exact hb.L
      fu := by
        rw [e7, e5, e2]
        intro w hw
        simp only [Option.some.injEq] at hw
        exact ⟨v, j, hx ▸ hat, hw.symm, .inr ⟨hp, hU⟩, fun h => by rw [← h]; exact hf⟩
      fl := by rw [e6, e4, e2]; exact wfl
      nrm := by rw [hrn, e2]
      xs := hseq }
  · have hL : s.x_l = c.x_l := by
      rcases hb.L with h | ⟨v', j', h1, h2, h3⟩
      · exact h
      · rw [← hx] at h1
        obtain ⟨rfl, rfl⟩ := hat.unique h1
        rw [hp] at h3; simp at h3
    exact {
      l0 := by rw [e4]; exact hb.l0
      l1 := by rw [e4, e1]; exact hl1
      u1 := by rw [e5, e1]; exact hu1
      u0 := by rw [e5]; exact hb.u0
      cur := by rw [e1, e2, e3]; exact ⟨v, j, hat, hf, hfp⟩
      U := by rw [e5]; exact hb.U
      L := by rw [e4]; exact hb.L
      fu := by rw [e7, e5, e2]; exact wfu
      fl := by
        rw [e6, e4, e2]
        intro w hw
        simp only [Option.some.injEq] at hw
        exact ⟨v, j, hx ▸ hat, hw.symm, .inr ⟨hp, hL⟩, fun h => by rw [← h]; exact hf⟩
      nrm := by rw [hrn, e2]
      xs := hseq }

theorem Inv.step {σ : ℝ} {c : Cfg} {s s' : St} (hg : Good σ c) (h : Inv σ c s)
    (hc : continues c s = true) (hs : step c s = .ok s') : Inv σ c s' := by
  have hf0 := ne_zero_of_continues hg.tol_nonneg h.nrm hc
  obtain ⟨hl, hu⟩ := nextX_mem hg h hf0
  obtain ⟨t, ht, rfl⟩ := step_ok hs
  have hmem : c.Mem (nextX c s) := ⟨leb_trans h.l0 hl, leb_trans hu h.u0⟩
  obtain ⟨v, j, hv, -⟩ := hg.val _ hmem
  have hf : (evalAt c s (nextX c s)).f = fin (v - c.target) := by
    simp [evalAt, hv, sub_eq_add_neg]
  have hfp : (evalAt c s (nextX c s)).f_p = fin j := by simp [evalAt, hv]
  have hup := bracketLoop_upd hf hfp hl hu ht
  refine hup.inv hg (h.bra hf0) hl hu (show c.At (nextX c s) v j from hv) hf hfp h.xs
    (record s.x) (fun u => ⟨rfl, rfl, rfl, rfl, rfl, rfl, rfl⟩) rfl ?_
  intro x hx
  simp only [record, (bracketLoop_keeps ht).2.2.2.2.2.1, List.mem_append, List.mem_singleton,
    (bracketLoop_keeps ht).1] at hx
  exact hx

theorem Inv.init {σ : ℝ} {c : Cfg} {x0 : XR} {s : St} (hg : Good σ c) (hx : c.Mem x0)
    (hs : bracketInit (init c x0) = .ok s) : Inv σ c s := by
  obtain ⟨v, j, hv, -⟩ := hg.val _ hx
  have hf : (Solver.init c x0).f = fin (v - c.target) := by
    simp [Solver.init, hv, sub_eq_add_neg]
  have hfp : (Solver.init c x0).f_p = fin j := by simp [Solver.init, hv]
  have hup := bracketInit_upd hf hfp hx.1 hx.2 hs
  have hnn := leb_num_right hx.1
  have hb : Bra σ c (Solver.init c x0).x_l (Solver.init c x0).x_u (Solver.init c x0).f_l
      (Solver.init c x0).f_u := {
    l0 := leb_refl (leb_num_left hx.1)
    u0 := leb_refl (leb_num_right hx.2)
    U := .inl rfl
    L := .inl rfl
    fu := fun w hw => by
      simp only [Solver.init, hg.no_f_u, reduceCtorEq] at hw
    fl := fun w hw => by
      simp only [Solver.init, hg.no_f_l, reduceCtorEq] at hw }
  refine hup.inv hg hb hx.1 hx.2 (show c.At x0 v j from hv) hf hfp ?_ id
    (fun u => ⟨rfl, rfl, rfl, rfl, rfl, rfl, rfl⟩) ?_ ?_
  · intro x h
    simp only [Solver.init, List.mem_singleton] at h
    exact h ▸ hx
  · have k := bracketInit_keeps hs
    simp only [id]
    rw [k.2.2.2.2.2.2.2.2.1, k.2.1]; rfl
  · intro x h
    simp only [id, (bracketInit_keeps hs).2.2.2.2.2.1] at h
    exact .inl h

end Solver

end

end Verif
