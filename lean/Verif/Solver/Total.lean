import Verif.Solver.Newton
import Verif.Solver.Props

/-!
# C30: no assertion fails for monotone functions
-/

namespace Verif

open XR

noncomputable section

namespace Solver

theorem bracketInit_total {c : Cfg} {x0 : XR} {σ : ℝ} (hg : Good σ c) (hx : c.Mem x0)
    (h0 : ltb (init c x0).norm (fin c.atol) = false) : ∃ s, bracketInit (init c x0) = .ok s := by
  obtain ⟨v, j, hv, -⟩ := hg.val _ hx
  have hf : (Solver.init c x0).f = fin (v - c.target) := by
    simp [Solver.init, hv, sub_eq_add_neg]
  have hfp : (Solver.init c x0).f_p = fin j := by simp [Solver.init, hv]
  unfold bracketInit
  rw [signs_eq hf hfp hx.1 hx.2]
  by_cases h1 : 0 < (v - c.target) * j
  · rw [if_pos h1]; exact ⟨_, rfl⟩
  by_cases h2 : (v - c.target) * j < 0
  · rw [if_neg h1, if_pos h2]; exact ⟨_, rfl⟩
  rw [if_neg h1, if_neg h2]
  have h3 : (v - c.target) * j = 0 := le_antisymm (not_lt.mp h1) (not_lt.mp h2)
  rcases mul_eq_zero.1 h3 with h | h
  · exfalso
    have hn : (Solver.init c x0).norm = (Solver.init c x0).f.abs := rfl
    rw [hn, hf, h, abs_fin, abs_zero, ltb_fin', decide_eq_false_iff_not] at h0
    exact h0 hg.atol_pos
  · refine ⟨init c x0, ?_⟩
    simp only [hfp, h, isZero_fin, decide_true, if_true]

theorem step_total {c : Cfg} {s : St} {σ : ℝ} (hg : Good σ c) (h : Inv σ c s)
    (hc : continues c s = true) : ∃ s', step c s = .ok s' := by
  have hm := nextX_mem hg h (ne_zero_of_continues hg.tol_nonneg h.nrm hc)
  obtain ⟨v, j, hv, -⟩ := hg.val _ ⟨leb_trans h.l0 hm.1, leb_trans hm.2 h.u0⟩
  unfold step
  have hf : (evalAt c s (nextX c s)).f = fin (v - c.target) := by
    simp [evalAt, hv, sub_eq_add_neg]
  have hfp : (evalAt c s (nextX c s)).f_p = fin j := by simp [evalAt, hv]
  have : ∃ t, bracketLoop (evalAt c s (nextX c s)) = .ok t := by
    unfold bracketLoop
    rw [signs_eq hf hfp hm.1 hm.2]
    by_cases h1 : 0 < (v - c.target) * j
    · rw [if_pos h1]; exact ⟨_, rfl⟩
    by_cases h2 : (v - c.target) * j < 0
    · rw [if_neg h1, if_pos h2]; exact ⟨_, rfl⟩
    rw [if_neg h1, if_neg h2]
    have h3 : (v - c.target) * j = 0 := le_antisymm (not_lt.mp h1) (not_lt.mp h2)
    simp only [hf, hfp, isZero_fin]
    by_cases hj : j = 0
    · simp only [hj, decide_true, if_true]
      split_ifs <;> exact ⟨_, rfl⟩
    · have hv0 := (mul_eq_zero.1 h3).resolve_right hj
      simp only [hj, hv0, decide_false, decide_true, if_true, Bool.false_eq_true, if_false]
      exact ⟨_, rfl⟩
  obtain ⟨t, ht⟩ := this
  exact ⟨record s.x t, by rw [ht]; rfl⟩

/-- **C30**, no assertion fails: if values and derivatives are numbers, the derivative does not
change sign and, at a finite end of the interval where the derivative vanishes, the value is on
the right side of the target, then the solver returns a solution from every initial point of the
interval, and all iterates stay in the interval. -/
theorem C30_total {σ : ℝ} {c : Cfg} (hg : Good σ c) {x0 : XR} (hx : c.Mem x0) :
    ∃ r, solve c x0 = .ok r ∧ c.Mem r.x ∧ ∀ x ∈ r.x_seq, c.Mem x := by
  have hxn : x0 ≠ nan := leb_num_right hx.1
  have hl := leb_num_left hx.1
  have hu := leb_num_right hx.2
  have hin : (ltb c.x_u x0 || ltb x0 c.x_l) = false := by
    have h1 := (leb_iff_of_num hl hxn).1 hx.1
    have h2 := (leb_iff_of_num hxn hu).1 hx.2
    simp [h1, h2]
  have : ∃ r, solve c x0 = .ok r := by
    unfold solve
    simp only [hin, Bool.false_eq_true, if_false]
    by_cases h0 : ltb (init c x0).norm (fin c.atol) = true
    · rw [if_pos h0]; exact ⟨_, rfl⟩
    · rw [if_neg h0]
      obtain ⟨s, hs⟩ := bracketInit_total hg hx (by simpa using h0)
      obtain ⟨t, ht, -⟩ := loop_total c (P := Inv σ c) (fun s hs hc => by
        obtain ⟨s', h'⟩ := step_total hg hs hc
        exact ⟨s', h', hs.step hg hc h'⟩) c.max_iter s (Inv.init hg hx hs)
      rw [hs]
      simp only [Except.bind, ht, Except.map]
      exact ⟨_, rfl⟩
  obtain ⟨r, hr⟩ := this
  exact ⟨r, hr, C30_partial hg hxn hl hu hr⟩

/-- The hypotheses are met by `|x|` on `[0, 7]`. -/
example : Good 1 ⟨fun x => (x.abs, fin 1), 3, 1, 0, 5, fin 0, fin 7, none, none⟩ ∧
    Cfg.Mem ⟨fun x => (x.abs, fin 1), 3, 1, 0, 5, fin 0, fin 7, none, none⟩ (fin 2) := by
  refine ⟨⟨.inl rfl, one_pos, by norm_num [Cfg.tol], rfl, rfl, by simp, by simp, ?_, ?_, ?_⟩, ?_⟩
  · intro x hx
    cases x with
    | fin r => exact ⟨|r|, 1, rfl, by norm_num⟩
    | pinf => simp [Cfg.Mem, leb] at hx
    | ninf => simp [Cfg.Mem, leb] at hx
    | nan => simp [Cfg.Mem, leb] at hx
  · intro b v _ _ h
    simp at h
  · intro b v _ _ h
    simp at h
  · norm_num [Cfg.Mem]

end Solver

end

end Verif
