import Verif.Solver.Lemmas

/-!
# The solver in other units

If the unknown is measured in other units, all points the solver visits are those of the original run
in the new units, and everything else it computes is unchanged.
-/

namespace Verif

open XR

noncomputable section

/-- Multiplication by a positive number; infinities are kept. -/
def scaleX (a : ℝ) : XR → XR
  | fin r => fin (a * r)
  | pinf => pinf
  | ninf => ninf
  | nan => nan

namespace Solver

/-- The solution in other units: point and visited points are multiplied by `a`. -/
def Solution.scale (a : ℝ) (sol : Solution) : Solution :=
  { sol with x := scaleX a sol.x, x_seq := sol.x_seq.map (scaleX a) }

/-- The local variables in other units. -/
private def sc (a : ℝ) (s : St) : St :=
  { s with x := scaleX a s.x, x_l := scaleX a s.x_l, x_u := scaleX a s.x_u,
           f_p := scaleX a⁻¹ s.f_p, x_seq := s.x_seq.map (scaleX a) }

section ops

variable {a : ℝ} (ha : 0 < a)
include ha

private theorem leb_sc (x y : XR) : leb (scaleX a x) (scaleX a y) = leb x y := by
  cases x <;> cases y <;> simp [scaleX, leb, mul_le_mul_iff_right₀ ha]

private theorem ltb_sc (x y : XR) : ltb (scaleX a x) (scaleX a y) = ltb x y := by
  cases x <;> cases y <;> simp [scaleX, ltb, mul_lt_mul_iff_right₀ ha]

private theorem eqb_sc (x y : XR) : eqb (scaleX a x) (scaleX a y) = eqb x y := by
  cases x <;> cases y <;> simp [scaleX, eqb, ha.ne']

private theorem isZero_sc (x : XR) : (scaleX a x).isZero = x.isZero := by
  cases x <;> simp [scaleX, isZero, ha.ne']

omit ha in
private theorem isInf_sc (x : XR) : (scaleX a x).isInf = x.isInf := by
  cases x <;> rfl

private theorem pos_sc (x : XR) : pos (scaleX a x) = pos x := by
  cases x <;> simp [scaleX, pos, ltb, zero_def, ha]

private theorem negv_sc (x : XR) : negv (scaleX a x) = negv x := by
  cases x <;> simp [scaleX, negv, ltb, zero_def, mul_neg_iff, ha, not_lt.2 ha.le]

omit ha in
private theorem add_sc (x y : XR) : scaleX a (x + y) = scaleX a x + scaleX a y := by
  cases x <;> cases y <;> first | rfl | (simp [scaleX, mul_add])

omit ha in
private theorem neg_sc (x : XR) : scaleX a (-x) = -scaleX a x := by
  cases x <;> first | rfl | (simp [scaleX])

private theorem abs_sc (x : XR) : scaleX a x.abs = (scaleX a x).abs := by
  cases x <;> simp [scaleX, XR.abs, abs_mul, abs_of_pos ha]

omit ha in
private theorem scale_signedInf (r : ℝ) : scaleX a (signedInf r) = signedInf r := by
  unfold signedInf
  split_ifs <;> rfl

private theorem signedInf_mul (r : ℝ) : signedInf (a * r) = signedInf r := by
  unfold signedInf
  simp [mul_neg_iff, ha, not_lt.2 ha.le]

private theorem mul_sc (v x : XR) : v * scaleX a x = scaleX a (v * x) := by
  cases v <;> cases x <;> first
    | rfl
    | (show fin _ = fin _; congr 1; ring)
    | exact (signedInf_mul ha _).trans (scale_signedInf _).symm
    | exact (scale_signedInf _).symm
    | (show signedInf (-(a * _)) = scaleX a (signedInf (-_))
       rw [scale_signedInf, ← mul_neg, signedInf_mul ha])

/-- A quotient with numerator in the new units. -/
private theorem div_num (x y : XR) : npDiv (scaleX a x) y = scaleX a (npDiv x y) := by
  cases x <;> cases y <;> first
    | rfl
    | (show fin 0 = fin (a * 0); rw [mul_zero])
    | (unfold npDiv
       dsimp only [scaleX]
       split_ifs
       · first | rfl | exact (signedInf_mul ha _).trans (scale_signedInf _).symm
       · first | exact (scale_signedInf _).symm | (show fin _ = fin _; congr 1; ring))

private theorem div_both (x y : XR) : npDiv (scaleX a x) (scaleX a y) = npDiv x y := by
  cases x <;> cases y <;> first
    | rfl
    | (unfold npDiv
       dsimp only [scaleX]
       simp only [mul_eq_zero, ha.ne', false_or]
       split_ifs
       · first | rfl | exact signedInf_mul ha _
       · first
          | (show fin _ = fin _; congr 1; field_simp)
          | exact signedInf_mul ha _
          | rw [← mul_neg, signedInf_mul ha])

private theorem div_den (x y : XR) : npDiv x (scaleX a⁻¹ y) = scaleX a (npDiv x y) := by
  have hi : 0 < a⁻¹ := inv_pos.2 ha
  rw [← div_both ha x (scaleX a⁻¹ y), div_num ha]
  congr 1
  cases y <;> first | rfl | (simp [scaleX, ha.ne'])

private theorem nextX_sc {c c' : Cfg} {s : St} (h : s.f_p.isZero = false) :
    nextX c' (sc a s) = scaleX a (nextX c s) := by
  have hdx : newtonDx c' (sc a s) = scaleX a (newtonDx c s) := by
    unfold newtonDx
    have h' : (sc a s).f_p.isZero = false := by
      show (scaleX a⁻¹ s.f_p).isZero = false
      rw [isZero_sc (inv_pos.2 ha), h]
    rw [h, h']
    exact div_den ha _ _
  unfold nextX
  simp only [hdx]
  have hx : (sc a s).x + scaleX a (newtonDx c s) = scaleX a (s.x + newtonDx c s) := (add_sc _ _).symm
  simp only [hx, show (sc a s).x_u = scaleX a s.x_u from rfl, show (sc a s).x_l = scaleX a s.x_l from rfl,
    show (sc a s).f_u = s.f_u from rfl, show (sc a s).f_l = s.f_l from rfl, leb_sc ha, isInf_sc]
  by_cases h1 : (s.x_u.leb (s.x + newtonDx c s) || (s.x + newtonDx c s).leb s.x_l) = true
  · rw [if_pos h1, if_pos h1]
    cases s.f_u with
    | none => rfl
    | some fu =>
      cases s.f_l with
      | none => rfl
      | some fl =>
        dsimp only
        split_ifs
        · simp [scaleX]
        · rw [← abs_sc ha, mul_sc ha, ← add_sc]
        · rw [← abs_sc ha, mul_sc ha, ← neg_sc, ← add_sc]
        · rw [← neg_sc, ← add_sc, mul_sc ha, div_num ha, ← neg_sc, ← add_sc]
  · rw [if_neg h1, if_neg h1]

private theorem signs_sc (s : St) : signs (sc a s) = (signs s).map (sc a) := by
  unfold signs
  simp only [show (sc a s).x_u = scaleX a s.x_u from rfl, show (sc a s).x_l = scaleX a s.x_l from rfl,
    show (sc a s).x = scaleX a s.x from rfl, show (sc a s).f = s.f from rfl,
    show (sc a s).f_p = scaleX a⁻¹ s.f_p from rfl, leb_sc ha, pos_sc (inv_pos.2 ha),
    negv_sc (inv_pos.2 ha)]
  split_ifs <;> rfl

private theorem bracketInit_sc (s : St) : bracketInit (sc a s) = (bracketInit s).map (sc a) := by
  unfold bracketInit
  rw [signs_sc ha, show (sc a s).f_p = scaleX a⁻¹ s.f_p from rfl, isZero_sc (inv_pos.2 ha)]
  cases signs s with
  | none => dsimp only [Option.map]; split_ifs <;> rfl
  | some s' => rfl

private theorem bracketLoop_sc (s : St) : bracketLoop (sc a s) = (bracketLoop s).map (sc a) := by
  unfold bracketLoop
  rw [signs_sc ha]
  simp only [show (sc a s).f_p = scaleX a⁻¹ s.f_p from rfl, isZero_sc (inv_pos.2 ha),
    show (sc a s).x_u = scaleX a s.x_u from rfl, show (sc a s).x_l = scaleX a s.x_l from rfl,
    show (sc a s).x = scaleX a s.x from rfl, show (sc a s).f = s.f from rfl, eqb_sc ha]
  cases signs s with
  | none => dsimp only [Option.map]; split_ifs <;> rfl
  | some s' => rfl

private theorem record_sc (x : XR) (s : St) : record (scaleX a x) (sc a s) = sc a (record x s) := by
  have hd : (sc a s).x + -scaleX a x = scaleX a (s.x + -x) := by
    rw [add_sc, neg_sc]; rfl
  unfold record
  simp only [isZero_sc ha, isInf_sc, hd, div_both ha]
  simp [sc]

end ops

variable {c c' : Cfg} {a : ℝ}

/-- The same problem in other units, at one point. -/
private def At (c c' : Cfg) (a : ℝ) (x : XR) : Prop :=
  c'.func (scaleX a x) = ((c.func x).1, scaleX a⁻¹ (c.func x).2) ∧ (c.func x).2.isZero = false

private structure Like (c c' : Cfg) (a : ℝ) : Prop where
  target : c'.target = c.target
  atol : c'.atol = c.atol
  rtol : c'.rtol = c.rtol
  max_iter : c'.max_iter = c.max_iter
  x_l : c'.x_l = scaleX a c.x_l
  x_u : c'.x_u = scaleX a c.x_u
  f_l : c'.f_l = c.f_l
  f_u : c'.f_u = c.f_u

private theorem evalAt_sc (hc : Like c c' a) {s : St} {x : XR} (h : At c c' a x) :
    evalAt c' (sc a s) (scaleX a x) = sc a (evalAt c s x) := by
  unfold evalAt
  rw [h.1, hc.target]
  rfl

private theorem continues_sc (hc : Like c c' a) (s : St) : continues c' (sc a s) = continues c s := by
  unfold continues Cfg.tol
  rw [hc.atol, hc.rtol, hc.target, hc.max_iter]
  rfl

private theorem step_sc (ha : 0 < a) (hc : Like c c' a) {s s' : St} (h0 : s.f_p.isZero = false)
    (h : step c s = .ok s') (hx : At c c' a s'.x) :
    step c' (sc a s) = .ok (sc a s') ∧ s'.f_p.isZero = false := by
  unfold step at h ⊢
  cases hb : bracketLoop (evalAt c s (nextX c s)) with
  | error e => rw [hb] at h; cases h
  | ok t =>
    have ht : t.x = nextX c s ∧ t.f_p = (c.func (nextX c s)).2 := by
      obtain ⟨h1, h2⟩ := bracketLoop_keeps hb
      exact ⟨h1, h2.2.1⟩
    rw [hb] at h
    have h' : record s.x t = s' := by cases h; rfl
    have hx' : s'.x = nextX c s := by rw [← h']; exact ht.1
    rw [hx'] at hx
    refine ⟨?_, ?_⟩
    · rw [nextX_sc ha h0 (c := c), evalAt_sc hc hx, bracketLoop_sc ha, hb]
      show Except.ok (record (scaleX a s.x) (sc a t)) = _
      rw [record_sc ha, h']
    · rw [← h']
      show t.f_p.isZero = false
      rw [ht.2]
      exact hx.2

private theorem mkSolution_sc (hc : Like c c' a) (s : St) :
    mkSolution c' (sc a s) = (mkSolution c s).scale a := by
  unfold mkSolution Solution.scale
  rw [hc.target, hc.max_iter, hc.atol, hc.rtol]
  rfl

private theorem loop_sc (ha : 0 < a) (hc : Like c c' a) : ∀ (fuel : ℕ) (s s' : St),
    s.f_p.isZero = false → loop c fuel s = .ok s' → (∀ x ∈ s'.x_seq, At c c' a x) →
    loop c' fuel (sc a s) = .ok (sc a s') := by
  intro fuel
  induction fuel with
  | zero =>
    intro s s' _ h _
    simp only [loop, Except.ok.injEq] at h ⊢
    rw [h]
  | succ k ih =>
    intro s s' h0 h hx
    unfold loop at h ⊢
    rw [continues_sc hc]
    split_ifs at h ⊢ with hcon
    · cases hst : step c s with
      | error e => rw [hst] at h; cases h
      | ok t =>
        rw [hst] at h
        have h' : loop c k t = .ok s' := h
        have hmem : t.x ∈ s'.x_seq := by
          refine loop_inv c (P := fun r => t.x ∈ r.x_seq) ?_ _ _ _ ?_ h'
          · intro r r' hr _ hs
            rw [(step_seq hs).1]
            exact List.mem_append_left _ hr
          · rw [(step_seq hst).1]
            simp
        obtain ⟨h1, h2⟩ := step_sc ha hc h0 hst (hx _ hmem)
        rw [h1]
        exact ih _ _ h2 h' hx
    · cases h
      rfl

/-- **Units.**  `c'` is the problem `c` with the unknown multiplied by `a`: same values and derivatives
divided by `a` at all points visited.  If no derivative vanishes, the run is the same up to the factor
`a`. -/
theorem solve_scale (ha : 0 < a) {func' : XR → XR × XR} {x0 : XR} {sol : Solution}
    (h : solve c x0 = .ok sol)
    (hf : ∀ x ∈ sol.x_seq, func' (scaleX a x) = ((c.func x).1, scaleX a⁻¹ (c.func x).2) ∧
      (c.func x).2.isZero = false) :
    solve { c with func := func', x_l := scaleX a c.x_l, x_u := scaleX a c.x_u } (scaleX a x0)
      = .ok (sol.scale a) := by
  set c' : Cfg := { c with func := func', x_l := scaleX a c.x_l, x_u := scaleX a c.x_u } with hc'
  have hc : Like c c' a := ⟨rfl, rfl, rfl, rfl, rfl, rfl, rfl, rfl⟩
  have hf' : ∀ x ∈ sol.x_seq, At c c' a x := hf
  obtain ⟨⟨h1, h2⟩, h3⟩ := solve_ok h
  have hinit : At c c' a x0 → init c' (scaleX a x0) = sc a (init c x0) := by
    intro hx
    unfold init
    rw [hx.1, hc.target, hc.x_l, hc.x_u, hc.f_l, hc.f_u]
    rfl
  have hgo : (ltb c'.x_u (scaleX a x0) || ltb (scaleX a x0) c'.x_l) = false := by
    rw [hc.x_u, hc.x_l, ltb_sc ha, ltb_sc ha, h1, h2]
    rfl
  unfold solve
  simp only [hgo, Bool.false_eq_true, if_false]
  rcases h3 with ⟨h4, rfl⟩ | ⟨h4, s1, s2, h5, h6, rfl⟩
  · have hx := hf' x0 (by simp [mkSolution, init])
    rw [hinit hx, show (sc a (init c x0)).norm = (init c x0).norm from rfl, hc.atol, if_pos h4,
      mkSolution_sc hc]
  · have hk := bracketInit_keeps h5
    have hmem : x0 ∈ s2.x_seq := by
      refine loop_inv c (P := fun r => x0 ∈ r.x_seq) ?_ _ _ _ ?_ h6
      · intro r r' hr _ hs
        rw [(step_seq hs).1]
        exact List.mem_append_left _ hr
      · rw [hk.2.2.2.2.2.1]
        simp [init]
    have hx := hf' x0 hmem
    have h0 : s1.f_p.isZero = false := by
      rw [hk.2.2.1]
      exact hx.2
    rw [hinit hx, show (sc a (init c x0)).norm = (init c x0).norm from rfl, hc.atol, if_neg (by simp [h4]),
      bracketInit_sc ha, h5]
    show (loop c' c'.max_iter (sc a s1)).map (mkSolution c') = _
    rw [hc.max_iter, loop_sc ha hc _ _ _ h0 h6 hf']
    show Except.ok (mkSolution c' (sc a s2)) = _
    rw [mkSolution_sc hc]

end Solver
end
end Verif
