import Verif.Solver.Lemmas

/-! # A run of the solver depends on the function only through its values at the points visited -/

namespace Verif.Solver

open XR

noncomputable section

variable {c : Cfg} {func' : XR → XR × XR}

private theorem step_congr {s s' : St} (h : step c s = .ok s') (hx : func' s'.x = c.func s'.x) :
    step { c with func := func' } s = .ok s' := by
  have hn : nextX { c with func := func' } s = nextX c s := rfl
  have he : evalAt { c with func := func' } s (nextX c s) = evalAt c s (nextX c s) := by
    rw [step_x h] at hx
    unfold evalAt
    dsimp only
    rw [hx]
  unfold step at h ⊢
  rw [hn, he]
  exact h

private theorem loop_congr : ∀ (fuel : ℕ) (s s' : St), loop c fuel s = .ok s' →
    (∀ x ∈ s'.x_seq, func' x = c.func x) → loop { c with func := func' } fuel s = .ok s' := by
  intro fuel
  induction fuel with
  | zero => intro s s' h _; exact h
  | succ k ih =>
    intro s s' h hx
    unfold loop at h ⊢
    rw [show continues { c with func := func' } s = continues c s from rfl]
    by_cases hcon : continues c s = true
    · rw [if_pos hcon] at h ⊢
      cases hst : step c s with
      | error e => rw [hst] at h; cases h
      | ok t =>
        rw [hst] at h
        have h' : loop c k t = .ok s' := h
        have hmem : t.x ∈ s'.x_seq := by
          refine loop_inv c (P := fun r => t.x ∈ r.x_seq) ?_ _ _ _ ?_ h'
          · intro r r' hr _ hs
            rw [(step_seq hs).1]
            exact List.mem_append_left _ hr
          · rw [(step_seq hst).1]
            simp
        rw [step_congr hst (hx _ hmem)]
        exact ih _ _ h' hx
    · rw [if_neg hcon] at h ⊢
      exact h

/-- Two functions that agree at the points visited give the same run. -/
theorem solve_congr {x0 : XR} {sol : Solution} (h : solve c x0 = .ok sol)
    (hf : ∀ x ∈ sol.x_seq, func' x = c.func x) :
    solve { c with func := func' } x0 = .ok sol := by
  obtain ⟨⟨h1, h2⟩, h3⟩ := solve_ok h
  have hinit : func' x0 = c.func x0 → init { c with func := func' } x0 = init c x0 := by
    intro hx
    unfold init
    dsimp only
    rw [hx]
  have hgo : (ltb c.x_u x0 || ltb x0 c.x_l) = false := by
    rw [h1, h2]
    rfl
  unfold solve
  simp only [hgo, Bool.false_eq_true, if_false]
  rcases h3 with ⟨h4, rfl⟩ | ⟨h4, s1, s2, h5, h6, rfl⟩
  · rw [hinit (hf x0 (by simp [mkSolution, init])), if_pos h4]
    rfl
  · have hmem : x0 ∈ s2.x_seq := by
      refine loop_inv c (P := fun r => x0 ∈ r.x_seq) ?_ _ _ _ ?_ h6
      · intro r r' hr _ hs
        rw [(step_seq hs).1]
        exact List.mem_append_left _ hr
      · rw [(bracketInit_keeps h5).2.2.2.2.2.1]
        simp [init]
    rw [hinit (hf x0 hmem), if_neg (by simp [h4]), h5]
    show (loop _ c.max_iter s1).map _ = _
    rw [loop_congr _ _ _ h6 hf]
    rfl

end

end Verif.Solver
