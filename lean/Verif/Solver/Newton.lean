import Verif.Solver.Props
import Verif.Solver.Fit

/-!
# Newton iteration on a concave increasing objective

Helper lemmas for C33, C34 and C54: the solver called as in `fit` (interval `[0, inf]`) on an
increasing concave function.
-/

namespace Verif

open XR

noncomputable section

namespace Solver

/-- A concave non-decreasing objective with derivative `F'`. -/
structure Obj (F F' : ℝ → ℝ) : Prop where
  zero : F 0 = 0
  concave : ∀ x y, 0 ≤ x → 0 ≤ y → F y ≤ F x + F' x * (y - x)
  mono : ∀ x y, 0 ≤ x → x ≤ y → F x ≤ F y
  nonneg : ∀ d, 0 ≤ d → 0 ≤ F' d
  anti : ∀ x y, 0 ≤ x → x ≤ y → F' y ≤ F' x
  pos : ∀ d, 0 ≤ d → 0 < F d → 0 < F' d

/-- The function given to the solver computes the objective and its derivative. -/
def Rep (func : XR → XR × XR) (F F' : ℝ → ℝ) : Prop :=
  ∀ d, 0 ≤ d → func (fin d) = (fin (F d), fin (F' d))

/-- State to the left of the target: the current point is `d` with `F d ≤ t`. -/
structure Left (F F' : ℝ → ℝ) (t : ℝ) (s : St) (d : ℝ) : Prop where
  hx : s.x = fin d
  hd : 0 ≤ d
  hle : F d ≤ t
  hf : s.f = fin (F d - t)
  hfp : s.f_p = fin (F' d)
  hl : ∃ l, s.x_l = fin l ∧ l ≤ d
  hu : s.x_u = pinf ∨ ∃ b, s.x_u = fin b ∧ d < b ∧ t < F b
  hn : s.norm = fin (t - F d)

/-- Successful bracket update at a point with non-positive residual and non-negative
derivative. -/
theorem bracketLoop_left {u : St} {a j d l : ℝ} (hf : u.f = fin a) (hj : u.f_p = fin j)
    (ha : a ≤ 0) (hj0 : 0 ≤ j) (hx : u.x = fin d) (hl : u.x_l = fin l) (hld : l ≤ d)
    (hu : ltb u.x u.x_u = true) :
    ∃ u', bracketLoop u = .ok u' ∧ u'.x_u = u.x_u ∧ ∃ l', u'.x_l = fin l' ∧ l' ≤ d := by
  have hle : leb u.x_l u.x = true := by rw [hx, hl]; simpa using hld
  unfold bracketLoop
  rw [signs_eq hf hj hle (leb_of_ltb hu)]
  have h1 : ¬ 0 < a * j := not_lt.mpr (mul_nonpos_of_nonpos_of_nonneg ha hj0)
  rw [if_neg h1]
  by_cases h2 : a * j < 0
  · rw [if_pos h2]
    exact ⟨_, rfl, rfl, d, hx, le_rfl⟩
  · rw [if_neg h2]
    simp only
    have h3 : a * j = 0 := le_antisymm (not_lt.mp h1) (not_lt.mp h2)
    split_ifs with c1 c2 c3 c4
    · exact ⟨_, rfl, rfl, l, hl, hld⟩
    · exact ⟨_, rfl, rfl, l, hl, hld⟩
    · exact ⟨_, rfl, rfl, l, hl, hld⟩
    · exact ⟨_, rfl, rfl, l, hl, hld⟩
    · exfalso
      rw [hj] at c1
      rw [hf] at c4
      simp at c1 c4
      rcases mul_eq_zero.mp h3 with h | h
      · exact c4 h
      · exact c1 h

/-- One iteration from a state on the left (or from any state whose next point is `d'` with
non-positive residual). -/
theorem left_of_next {F F' : ℝ → ℝ} {t : ℝ} {o : Fit.Opts} {func : XR → XR × XR}
    (hF : Obj F F') (hr : Rep func F F') {s : St} {d' l : ℝ}
    (hnx : nextX (Fit.cfg func t o) s = fin d') (hd' : 0 ≤ d') (hle : F d' ≤ t)
    (hl : s.x_l = fin l) (hld : l ≤ d')
    (hu : s.x_u = pinf ∨ ∃ b, s.x_u = fin b ∧ d' < b ∧ t < F b) :
    ∃ s', step (Fit.cfg func t o) s = .ok s' ∧ Left F F' t s' d' := by
  have e := hr d' hd'
  have hev : evalAt (Fit.cfg func t o) s (fin d') =
      { s with x := fin d', f := fin (F d' + -t), f_p := fin (F' d') } := by
    simp [evalAt, Fit.cfg, e]
  have hlt : ltb (fin d') s.x_u = true := by
    rcases hu with h | ⟨b, h, hb, -⟩
    · rw [h]; rfl
    · rw [h]; simpa using hb
  obtain ⟨u', h1, h2, l', h3, h4⟩ := bracketLoop_left
    (u := { s with x := fin d', f := fin (F d' + -t), f_p := fin (F' d') }) (a := F d' + -t)
    (j := F' d') (d := d') (l := l) rfl rfl (by linarith) (hF.nonneg d' hd') rfl hl hld hlt
  obtain ⟨k1, k2, k3, -⟩ := bracketLoop_keeps h1
  refine ⟨record s.x u', ?_, ?_⟩
  · unfold step
    rw [hnx, hev, h1]
    rfl
  · exact {
      hx := by simpa [record] using k1
      hd := hd'
      hle := hle
      hf := by simpa [record, sub_eq_add_neg] using k2
      hfp := by simpa [record] using k3
      hl := ⟨l', by simpa [record] using h3, h4⟩
      hu := by simpa [record, h2] using hu
      hn := by
        have : |F d' + -t| = t - F d' := by rw [abs_of_nonpos (by linarith)]; ring
        simp [record, k2, this] }

/-- Newton step length from a state on the left. -/
def newtonLen (F F' : ℝ → ℝ) (t : ℝ) (o : Fit.Opts) (d : ℝ) : ℝ :=
  if F' d = 0 then (t - F d) / o.atol else (t - F d) / F' d

theorem continues_norm {c : Cfg} {s : St} (hc : continues c s = true) :
    ltb (fin c.tol) s.norm = true := by
  simp only [continues, Bool.and_eq_true] at hc
  exact hc.1.1

theorem nextX_newton {c : Cfg} {s : St} (h1 : leb s.x_u (s.x + newtonDx c s) = false)
    (h2 : leb (s.x + newtonDx c s) s.x_l = false) : nextX c s = s.x + newtonDx c s := by
  unfold nextX
  simp only [h1, h2, Bool.or_self, Bool.false_eq_true, if_false]

theorem Left.step {F F' : ℝ → ℝ} {t : ℝ} {o : Fit.Opts} {func : XR → XR × XR}
    (hF : Obj F F') (hr : Rep func F F') (hat : 0 < o.atol)
    (htol : 0 ≤ (Fit.cfg func t o).tol) {s : St} {d : ℝ} (h : Left F F' t s d)
    (hc : continues (Fit.cfg func t o) s = true) :
    (Fit.cfg func t o).tol < t - F d ∧ 0 < newtonLen F F' t o d ∧
    ∃ s', step (Fit.cfg func t o) s = .ok s' ∧ Left F F' t s' (d + newtonLen F F' t o d) := by
  have hgap : (Fit.cfg func t o).tol < t - F d := by
    have := continues_norm hc
    rw [h.hn] at this
    simpa using this
  have hg0 : 0 < t - F d := lt_of_le_of_lt htol hgap
  have hlen : 0 < newtonLen F F' t o d := by
    unfold newtonLen
    split_ifs with h0
    · positivity
    · have := lt_of_le_of_ne (hF.nonneg d h.hd) (Ne.symm h0)
      positivity
  refine ⟨hgap, hlen, ?_⟩
  obtain ⟨l, hl, hld⟩ := h.hl
  have hd' : 0 ≤ d + newtonLen F F' t o d := by linarith [h.hd]
  -- the tangent at `d` reaches the target at the new point (if it reaches it at all)
  have htan : F' d * newtonLen F F' t o d ≤ t - F d := by
    unfold newtonLen
    split_ifs with h0
    · rw [h0]; simpa using hg0.le
    · rw [mul_div_cancel₀ _ h0]
  have hle : F (d + newtonLen F F' t o d) ≤ t := by
    have := hF.concave d _ h.hd hd'
    rw [add_sub_cancel_left] at this
    linarith
  have hu' : s.x_u = pinf ∨ ∃ b, s.x_u = fin b ∧ d + newtonLen F F' t o d < b ∧ t < F b := by
    rcases h.hu with hu | ⟨b, hu, hb, hFb⟩
    · exact .inl hu
    · refine .inr ⟨b, hu, ?_, hFb⟩
      have hb0 : 0 ≤ b := by linarith [h.hd]
      by_contra hcon
      have hmono := hF.mono b _ hb0 (not_lt.mp hcon)
      linarith
  refine left_of_next hF hr ?_ hd' hle hl (by linarith) hu'
  have hdx : newtonDx (Fit.cfg func t o) s = fin (newtonLen F F' t o d) := by
    rw [newtonDx_fin (show 0 < (Fit.cfg func t o).atol from hat) h.hf h.hfp]
    simp only [newtonLen, neg_sub, Fit.cfg]
  have h1 : leb s.x_u (fin (d + newtonLen F F' t o d)) = false := by
    rcases hu' with hu | ⟨b, hu, hb, -⟩
    · rw [hu]; rfl
    · rw [hu]; simpa using hb
  have h2 : leb (fin (d + newtonLen F F' t o d)) s.x_l = false := by
    rw [hl]; simp only [leb_fin, decide_eq_false_iff_not]; linarith
  have hsum : s.x + newtonDx (Fit.cfg func t o) s = fin (d + newtonLen F F' t o d) := by
    rw [hdx, h.hx]; rfl
  rw [nextX_newton (by rw [hsum, h1]) (by rw [hsum, h2]), hsum]

theorem step_diff {c : Cfg} {s s' : St} (h : step c s = .ok s') {d d' : ℝ} (hx : s.x = fin d)
    (hx' : s'.x = fin d') : s'.diff = fin (if d = 0 then 1 else |(d' - d) / d|) := by
  obtain ⟨u, hu, rfl⟩ := step_ok h
  have hx'' : u.x = fin d' := hx'
  simp only [record, hx, hx'', isZero_fin, isInf_fin]
  by_cases h0 : d = 0
  · simp [h0]
  · simp [h0, npDiv, sub_eq_add_neg]

theorem loop_total (c : Cfg) {P : St → Prop}
    (hstep : ∀ s, P s → continues c s = true → ∃ s', step c s = .ok s' ∧ P s') :
    ∀ (fuel : ℕ) (s : St), P s → ∃ s', loop c fuel s = .ok s' ∧ P s' := by
  intro fuel
  induction fuel with
  | zero => intro s hs; exact ⟨s, rfl, hs⟩
  | succ n ih =>
    intro s hs
    unfold loop
    by_cases hc : continues c s = true
    · rw [if_pos hc]
      obtain ⟨s', h1, h2⟩ := hstep s hs hc
      rw [h1]
      exact ih s' h2
    · rw [if_neg hc]
      exact ⟨s, rfl, hs⟩

/-- Residuals and derivatives at two successive points of Newton's method. -/
def Succ (F F' : ℝ → ℝ) (t a b : ℝ) : Prop := (t - F b) * F' a ≤ (t - F a) * (F' a - F' b)

theorem succ_newton {F F' : ℝ → ℝ} {t : ℝ} {o : Fit.Opts} (hF : Obj F F') {d : ℝ} (hd : 0 ≤ d)
    (hl : 0 < newtonLen F F' t o d) : Succ F F' t d (d + newtonLen F F' t o d) := by
  have hd' : 0 ≤ d + newtonLen F F' t o d := by linarith
  have hanti := hF.anti d _ hd (by linarith : d ≤ d + newtonLen F F' t o d)
  have hnn := hF.nonneg _ hd'
  have hc := hF.concave _ d hd' hd
  have hg := hF.nonneg d hd
  unfold Succ
  by_cases h0 : F' d = 0
  · have : F' (d + newtonLen F F' t o d) = 0 := le_antisymm (h0 ▸ hanti) hnn
    rw [h0, this]
    simp
  · have he : F' d * newtonLen F F' t o d = t - F d := by
      rw [newtonLen, if_neg h0, mul_div_cancel₀ _ h0]
    generalize newtonLen F F' t o d = l at *
    have h1 : t - F (d + l) ≤ (t - F d) - F' (d + l) * l := by linarith
    have h2 := mul_le_mul_of_nonneg_right h1 hg
    have h3 : (t - F d - F' (d + l) * l) * F' d = (t - F d) * (F' d - F' (d + l)) := by
      rw [← he]; ring
    linarith

theorem Succ.quarter {F F' : ℝ → ℝ} {t a b : ℝ} (h : Succ F F' t a b) (hb : 0 ≤ F' b)
    (hab : F' b ≤ F' a) (hr : 0 ≤ t - F a) :
    4 * ((t - F b) * F' b) ≤ (t - F a) * F' a := by
  unfold Succ at h
  generalize t - F a = r at *
  generalize t - F b = r' at *
  generalize F' a = g at *
  generalize F' b = g' at *
  rcases (hb.trans hab).eq_or_lt with h0 | h0
  · have : g' = 0 := le_antisymm (h0 ▸ hab) hb
    rw [← h0, this]
    simp
  · refine le_of_mul_le_mul_right ?_ h0
    have h1 := mul_le_mul_of_nonneg_right h hb
    have h2 : r * (4 * ((g - g') * g')) ≤ r * (g * g) := by
      refine mul_le_mul_of_nonneg_left ?_ hr
      nlinarith [sq_nonneg (g - 2 * g')]
    nlinarith

/-- Invariant of the loop once the iterate is on the left: the iterates since then are `ds`
followed by the current point. -/
structure Trace (F F' : ℝ → ℝ) (t : ℝ) (o : Fit.Opts) (tol : ℝ) (pre : List ℝ) (s : St)
    (ds : List ℝ) (d : ℝ) : Prop where
  left : Left F F' t s d
  seq : s.x_seq = (pre ++ (ds ++ [d])).map fin
  sorted : (ds ++ [d]).Pairwise (· < ·)
  below : ∀ e ∈ ds ++ [d], 0 ≤ e ∧ F e ≤ t
  progress : (∃ r, 0 ≤ r ∧ F r = t) → ds.length * tol ≤ F' 0 * d
  change : ∃ v, s.diff = fin v ∧ ((∃ r, 0 ≤ r ∧ F r = t) → pre = [] → v ≤ o.rtol → t - F d ≤ tol)
  rate : 4 ^ ds.length * ((t - F d) * F' d) ≤ t * F' 0
  count : ∀ k, ds.length = k + 1 → 4 ^ k * (tol * F' d) ≤ t * F' 0
  chain : (ds ++ [d]).IsChain (Succ F F' t)

theorem Trace.step {F F' : ℝ → ℝ} {t : ℝ} {o : Fit.Opts} {func : XR → XR × XR}
    (hF : Obj F F') (hr : Rep func F F') (hat : 0 < o.atol) (hrt : 0 ≤ o.rtol) (ht : 0 ≤ t)
    {pre ds : List ℝ} {s : St} {d : ℝ} (h : Trace F F' t o (Fit.cfg func t o).tol pre s ds d)
    (hc : continues (Fit.cfg func t o) s = true) :
    ∃ s', step (Fit.cfg func t o) s = .ok s' ∧ ∃ ds' d',
      Trace F F' t o (Fit.cfg func t o).tol pre s' ds' d' := by
  have htol : 0 ≤ (Fit.cfg func t o).tol := by
    show 0 ≤ o.atol + o.rtol * t
    positivity
  obtain ⟨hgap, hlen, s', hs', hl'⟩ := h.left.step hF hr hat htol hc
  have hdn := h.left.hd
  set ℓ := newtonLen F F' t o d with hℓ
  have hfeas : (∃ r, 0 ≤ r ∧ F r = t) → 0 < F' d ∧ F' d * ℓ = t - F d := by
    rintro ⟨r, hr0, hr⟩
    have hne : F' d ≠ 0 := by
      intro h0
      have := hF.concave d r hdn hr0
      rw [h0] at this
      linarith
    refine ⟨lt_of_le_of_ne (hF.nonneg d hdn) (Ne.symm hne), ?_⟩
    rw [hℓ, newtonLen, if_neg hne, mul_div_cancel₀ _ hne]
  refine ⟨s', hs', ds ++ [d], d + ℓ, ?_⟩
  have hsucc : Succ F F' t d (d + ℓ) := succ_newton hF hdn hlen
  have hdiff := step_diff hs' h.left.hx hl'.hx
  exact {
    left := hl'
    seq := by
      rw [(step_seq hs').1, h.seq, hl'.hx]
      simp
    sorted := by
      rw [List.pairwise_append]
      refine ⟨h.sorted, by simp, ?_⟩
      intro a ha b hb
      simp only [List.mem_singleton] at hb
      subst hb
      have : a ≤ d := by
        rcases List.mem_append.mp ha with ha | ha
        · exact (List.pairwise_append.mp h.sorted).2.2 a ha d (by simp) |>.le
        · simp only [List.mem_singleton] at ha; exact ha.le
      linarith
    below := by
      intro e he
      rcases List.mem_append.mp he with he | he
      · exact h.below e he
      · simp only [List.mem_singleton] at he
        subst he
        exact ⟨hl'.hd, hl'.hle⟩
    progress := by
      intro hx
      obtain ⟨h1, h2⟩ := hfeas hx
      have h3 := h.progress hx
      have h4 := hF.anti 0 d le_rfl hdn
      have h5 : F' d * ℓ ≤ F' 0 * ℓ := mul_le_mul_of_nonneg_right h4 hlen.le
      simp only [List.length_append, List.length_singleton, Nat.cast_add, Nat.cast_one]
      nlinarith
    change := by
      refine ⟨_, hdiff, ?_⟩
      intro hx _ hv
      obtain ⟨h1, h2⟩ := hfeas hx
      have hmono := hF.mono d (d + ℓ) hdn (by linarith)
      show t - F (d + ℓ) ≤ o.atol + o.rtol * t
      by_cases h0 : d = 0
      · rw [if_pos h0] at hv
        have : 0 ≤ F (d + ℓ) := by rw [← hF.zero]; exact hF.mono 0 _ le_rfl hl'.hd
        nlinarith
      · rw [if_neg h0] at hv
        have hdpos : 0 < d := lt_of_le_of_ne hdn (Ne.symm h0)
        rw [add_sub_cancel_left, abs_of_pos (by positivity), div_le_iff₀ hdpos] at hv
        have h6 := hF.concave d 0 hdn le_rfl
        rw [hF.zero] at h6
        have h7 := h.left.hle
        have h8 : F' d * ℓ ≤ F' d * (o.rtol * d) := mul_le_mul_of_nonneg_left hv h1.le
        have h9 : F' d * (o.rtol * d) ≤ o.rtol * t := by
          have : F' d * d ≤ t := by linarith
          have := mul_le_mul_of_nonneg_left this hrt
          linarith
        linarith
    rate := by
      rw [List.length_append, List.length_singleton, pow_succ, mul_assoc]
      refine (mul_le_mul_of_nonneg_left ?_ (by positivity)).trans h.rate
      exact hsucc.quarter (hF.nonneg _ hl'.hd) (hF.anti d _ hdn (by linarith))
        (by linarith [h.left.hle])
    count := fun k hk => by
      have hk' : ds.length = k := by simpa using hk
      refine le_trans ?_ h.rate
      rw [hk']
      refine mul_le_mul_of_nonneg_left ?_ (by positivity)
      exact mul_le_mul hgap.le (hF.anti d _ hdn (by linarith)) (hF.nonneg _ hl'.hd)
        (by linarith [h.left.hle])
    chain := by
      rw [List.isChain_append]
      refine ⟨h.chain, by simp, ?_⟩
      intro a ha b hb
      simp only [List.getLast?_append, List.getLast?_singleton, Option.some_or,
        Option.mem_some_iff] at ha
      simp only [List.head?_cons, Option.mem_some_iff] at hb
      subst ha hb
      exact hsucc }

/-- What a run that starts on the left returns. -/
structure LeftRun (F F' : ℝ → ℝ) (t : ℝ) (o : Fit.Opts) (sol : Solution) (pre ds : List ℝ)
    (d : ℝ) : Prop where
  x : sol.x = fin d
  seq : sol.x_seq = (pre ++ (ds ++ [d])).map fin
  sorted : (ds ++ [d]).Pairwise (· < ·)
  below : ∀ e ∈ ds ++ [d], 0 ≤ e ∧ F e ≤ t
  progress : (∃ r, 0 ≤ r ∧ F r = t) → ds.length * (o.atol + o.rtol * t) ≤ F' 0 * d
  count : ∀ k, ds.length = k + 1 → 4 ^ k * ((o.atol + o.rtol * t) * F' d) ≤ t * F' 0
  chain : (ds ++ [d]).IsChain (Succ F F' t)
  stop : sol.converged = true ∨ sol.max_iter_reached = true ∨ sol.no_change_stop = true
  done : (∃ r, 0 ≤ r ∧ F r = t) → pre = [] →
    sol.converged = true ∨ sol.max_iter_reached = true

theorem getLastD_append (l : List XR) (a b : XR) : (l ++ [a]).getLastD b = a := by simp

theorem Trace.finish {F F' : ℝ → ℝ} {t : ℝ} {o : Fit.Opts} {func : XR → XR × XR}
    {pre ds : List ℝ} {s : St} {d : ℝ} (h : Trace F F' t o (Fit.cfg func t o).tol pre s ds d)
    (hb : Book (Fit.cfg func t o) s)
    (hend : ltb s.norm (fin (Fit.cfg func t o).tol) = true ∨
      continues (Fit.cfg func t o) s = false) :
    LeftRun F F' t o (mkSolution (Fit.cfg func t o) s) pre ds d := by
  obtain ⟨ln, hln⟩ := hb.n_last
  obtain ⟨ld, hld⟩ := hb.d_last
  obtain ⟨v, hv, hch⟩ := h.change
  have hconv : (mkSolution (Fit.cfg func t o) s).converged = true ↔
      t - F d ≤ (Fit.cfg func t o).tol := by
    simp only [mkSolution, hln, getLastD_append, h.left.hn, leb_fin, decide_eq_true_eq]
    rfl
  have hno : (mkSolution (Fit.cfg func t o) s).no_change_stop = true ↔ v ≤ o.rtol := by
    simp only [mkSolution, hld, getLastD_append, hv, leb_fin, decide_eq_true_eq]
    rfl
  have hstop : (mkSolution (Fit.cfg func t o) s).converged = true ∨
      (mkSolution (Fit.cfg func t o) s).max_iter_reached = true ∨
      (mkSolution (Fit.cfg func t o) s).no_change_stop = true := by
    rw [hconv, hno]
    rcases hend with he | he
    · left
      rw [h.left.hn] at he
      simp only [ltb_fin', decide_eq_true_eq] at he
      exact he.le
    · simp only [continues, h.left.hn, hv, ltb_fin', Bool.and_eq_false_iff,
        decide_eq_false_iff_not, not_lt] at he
      rcases he with (he | he) | he
      · exact .inl he
      · exact .inr (.inl (by simpa [mkSolution] using he))
      · exact .inr (.inr he)
  exact {
    x := h.left.hx
    seq := h.seq
    sorted := h.sorted
    below := h.below
    progress := h.progress
    count := h.count
    chain := h.chain
    stop := hstop
    done := fun hx hp => by
      rcases hstop with h1 | h1 | h1
      · exact .inl h1
      · exact .inr h1
      · exact .inl (hconv.mpr (hch hx hp (hno.mp h1))) }

theorem solve_left {F F' : ℝ → ℝ} {t : ℝ} {o : Fit.Opts} {func : XR → XR × XR}
    (hF : Obj F F') (hr : Rep func F F') (hat : 0 < o.atol) (hrt : 0 ≤ o.rtol) (ht : 0 ≤ t)
    {d0 : ℝ} (h0 : 0 ≤ d0) (hle : F d0 ≤ t) :
    ∃ sol ds d, solve (Fit.cfg func t o) (fin d0) = .ok sol ∧
      LeftRun F F' t o sol [] ds d := by
  have e := hr d0 h0
  set c := Fit.cfg func t o with hc
  have hi : init c (fin d0) =
      { n_iter := 0, x := fin d0, f := fin (F d0 + -t), f_p := fin (F' d0), x_l := fin 0,
        x_u := pinf, f_l := none, f_u := none, norm := fin |F d0 + -t|, diff := fin 1,
        f_seq := [fin (F d0 + -t)], x_seq := [fin d0], norm_seq := [fin |F d0 + -t|],
        diff_seq := [fin 1] } := by
    simp [init, hc, Fit.cfg, e]
  have habs : |F d0 + -t| = t - F d0 := by rw [abs_of_nonpos (by linarith)]; ring
  have hF0 : 0 ≤ F d0 := by rw [← hF.zero]; exact hF.mono 0 _ le_rfl h0
  -- common construction of the invariant
  have mk : ∀ s : St, s.x = fin d0 → s.f = fin (F d0 + -t) → s.f_p = fin (F' d0) →
      (∃ l, s.x_l = fin l ∧ l ≤ d0) → s.x_u = pinf → s.norm = fin |F d0 + -t| →
      s.diff = fin 1 → s.x_seq = [fin d0] → Trace F F' t o c.tol [] s [] d0 := by
    intro s h1 h2 h3 h4 h5 h6 h7 h8
    exact {
      left := ⟨h1, h0, hle, by rw [h2, sub_eq_add_neg], h3, h4, .inl h5, by rw [h6, habs]⟩
      seq := by simp [h8]
      sorted := by simp
      below := by simp [h0, hle]
      progress := fun _ => by
        have := mul_nonneg (hF.nonneg 0 le_rfl) h0
        simpa using this
      change := ⟨1, h7, fun _ _ h1 => by
        show t - F d0 ≤ o.atol + o.rtol * t
        nlinarith⟩
      rate := by
        have h9 := hF.anti 0 d0 le_rfl h0
        have h10 := hF.nonneg d0 h0
        rw [List.length_nil, pow_zero, one_mul]
        exact mul_le_mul (by linarith) h9 h10 ht
      count := fun k hk => by simp at hk
      chain := by simp }
  unfold solve
  have hin : (ltb c.x_u (fin d0) || ltb (fin d0) c.x_l) = false := by
    simp only [hc, Fit.cfg, ltb_fin', Bool.or_eq_false_iff, decide_eq_false_iff_not, not_lt]
    exact ⟨rfl, h0⟩
  simp only [hin, Bool.false_eq_true, if_false]
  by_cases hearly : ltb (init c (fin d0)).norm (fin c.atol) = true
  · rw [if_pos hearly]
    refine ⟨_, [], d0, rfl, Trace.finish (mk _ ?_ ?_ ?_ ?_ ?_ ?_ ?_ ?_) (book_init c _) (.inl ?_)⟩
    any_goals rw [hi]
    · exact ⟨0, rfl, h0⟩
    · rw [hi] at hearly
      simp only [ltb_fin', decide_eq_true_eq] at hearly ⊢
      refine lt_of_lt_of_le hearly ?_
      show o.atol ≤ o.atol + o.rtol * t
      have := mul_nonneg hrt ht
      linarith
  · rw [if_neg hearly]
    have hlt : F d0 + -t < 0 := by
      rw [hi] at hearly
      simp only [ltb_fin', decide_eq_true_eq, habs] at hearly
      have : o.atol ≤ t - F d0 := not_lt.mp hearly
      linarith
    obtain ⟨s1, hs1, hT⟩ : ∃ s1, bracketInit (init c (fin d0)) = .ok s1 ∧
        Trace F F' t o c.tol [] s1 [] d0 := by
      unfold bracketInit
      rw [hi, signs_eq (a := F d0 + -t) (j := F' d0) rfl rfl (by simpa using h0) rfl]
      have hj := hF.nonneg d0 h0
      rw [if_neg (not_lt.mpr (mul_nonpos_of_nonpos_of_nonneg hlt.le hj))]
      by_cases h2 : (F d0 + -t) * F' d0 < 0
      · rw [if_pos h2]
        exact ⟨_, rfl, mk _ rfl rfl rfl ⟨d0, rfl, le_rfl⟩ rfl rfl rfl rfl⟩
      · rw [if_neg h2]
        have : F' d0 = 0 := by
          rcases hj.eq_or_lt with h | h
          · exact h.symm
          · exact absurd (mul_neg_of_neg_of_pos hlt h) h2
        simp only [isZero_fin, this, decide_true, if_true]
        refine ⟨_, rfl, mk _ rfl rfl ?_ ⟨0, rfl, h0⟩ rfl rfl rfl rfl⟩
        rw [this]
    have hb := book_start hs1
    obtain ⟨s2, hs2, hb2, ds, d, hT2⟩ := loop_total c
      (P := fun s => Book c s ∧ ∃ ds d, Trace F F' t o c.tol [] s ds d)
      (by
        rintro s ⟨hb, ds, d, hT⟩ hcon
        obtain ⟨s', h1, ds', d', h2⟩ := hT.step hF hr hat hrt ht hcon
        exact ⟨s', h1, book_step hb hcon h1, ds', d', h2⟩)
      c.max_iter s1 ⟨hb, [], d0, hT⟩
    refine ⟨mkSolution c s2, ds, d, ?_, hT2.finish hb2 (.inr (loop_stops c _ _ _ (by omega) hs2))⟩
    rw [hs1]
    simp only [Except.bind]
    rw [hs2]
    rfl

/-- A run that starts to the right of the target: after the first iteration it is on the
left. -/
theorem solve_right {F F' : ℝ → ℝ} {t : ℝ} {o : Fit.Opts} {func : XR → XR × XR}
    (hF : Obj F F') (hr : Rep func F F') (hat : 0 < o.atol) (hrt : 0 ≤ o.rtol) (ht : 0 ≤ t)
    {d0 : ℝ} (h0 : 0 ≤ d0) (hgt : t < F d0) :
    ∃ sol, solve (Fit.cfg func t o) (fin d0) = .ok sol ∧
      ((sol.x = fin d0 ∧ sol.x_seq = [fin d0] ∧
        (sol.converged = true ∨ sol.max_iter_reached = true ∨ sol.no_change_stop = true)) ∨
       ∃ ds d, LeftRun F F' t o sol [d0] ds d) := by
  have e := hr d0 h0
  have hp := hF.pos d0 h0 (lt_of_le_of_lt ht hgt)
  set c := Fit.cfg func t o with hc
  have htol : o.atol ≤ c.tol := by
    show o.atol ≤ o.atol + o.rtol * t
    have := mul_nonneg hrt ht
    linarith
  have habs : |F d0 + -t| = F d0 - t := by rw [abs_of_pos (by linarith)]; ring
  have hi : init c (fin d0) =
      { n_iter := 0, x := fin d0, f := fin (F d0 + -t), f_p := fin (F' d0), x_l := fin 0,
        x_u := pinf, f_l := none, f_u := none, norm := fin (F d0 - t), diff := fin 1,
        f_seq := [fin (F d0 + -t)], x_seq := [fin d0], norm_seq := [fin (F d0 - t)],
        diff_seq := [fin 1] } := by
    simp [init, hc, Fit.cfg, e, habs]
  unfold solve
  have hin : (ltb c.x_u (fin d0) || ltb (fin d0) c.x_l) = false := by
    simp only [hc, Fit.cfg, ltb_fin', Bool.or_eq_false_iff, decide_eq_false_iff_not, not_lt]
    exact ⟨rfl, h0⟩
  simp only [hin, Bool.false_eq_true, if_false]
  by_cases hearly : ltb (init c (fin d0)).norm (fin c.atol) = true
  · rw [if_pos hearly]
    refine ⟨_, rfl, .inl ?_⟩
    rw [hi] at hearly ⊢
    refine ⟨rfl, rfl, .inl ?_⟩
    simp only [mkSolution, List.getLastD, List.getLast, leb_fin, decide_eq_true_eq]
    simp only [ltb_fin', decide_eq_true_eq] at hearly
    exact (lt_of_lt_of_le hearly htol).le
  · rw [if_neg hearly]
    let s1 : St :=
      { n_iter := 0, x := fin d0, f := fin (F d0 + -t), f_p := fin (F' d0), x_l := fin 0,
        x_u := fin d0, f_l := none, f_u := some (fin (F d0 + -t)), norm := fin (F d0 - t),
        diff := fin 1, f_seq := [fin (F d0 + -t)], x_seq := [fin d0],
        norm_seq := [fin (F d0 - t)], diff_seq := [fin 1] }
    have hs1 : bracketInit (init c (fin d0)) = .ok s1 := by
      unfold bracketInit
      rw [hi, signs_eq (a := F d0 + -t) (j := F' d0) rfl rfl (by simpa using h0) rfl,
        if_pos (mul_pos (by linarith) hp)]
    have hb := book_start hs1
    rw [hs1]
    simp only [Except.bind]
    cases hm : c.max_iter with
    | zero =>
      refine ⟨_, rfl, .inl ⟨rfl, rfl, .inr (.inl ?_)⟩⟩
      simp [mkSolution, hm]
    | succ m =>
      unfold loop
      by_cases hcon : continues c s1 = true
      · rw [if_pos hcon]
        -- the first iteration
        have hdx : newtonDx c s1 = fin (-((F d0 - t) / F' d0)) := by
          rw [newtonDx_fin (show 0 < c.atol from hat) (s := s1) rfl rfl, if_neg hp.ne']
          congr 1
          ring
        have hsum : s1.x + newtonDx c s1 = fin (d0 - (F d0 - t) / F' d0) := by
          rw [hdx, sub_eq_add_neg]; rfl
        have hq : 0 < (F d0 - t) / F' d0 := div_pos (by linarith) hp
        obtain ⟨d1, hnx, hd1, hle1, hlt1⟩ : ∃ d1, nextX c s1 = fin d1 ∧ 0 ≤ d1 ∧ F d1 ≤ t ∧
            d1 < d0 := by
          by_cases hz : d0 - (F d0 - t) / F' d0 ≤ 0
          · refine ⟨0, ?_, le_rfl, by rw [hF.zero]; exact ht, ?_⟩
            · unfold nextX
              rw [if_pos]
              · show (leb s1.x_u (s1.x + newtonDx c s1) || leb (s1.x + newtonDx c s1) s1.x_l) = true
                rw [hsum]
                have : leb (fin (d0 - (F d0 - t) / F' d0)) s1.x_l = true := by
                  simpa [s1] using hz
                rw [this, Bool.or_true]
            · rcases h0.eq_or_lt with h | h
              · rw [← h, hF.zero] at hgt
                linarith
              · exact h
          · have hz' := not_le.mp hz
            refine ⟨d0 - (F d0 - t) / F' d0, ?_, hz'.le, ?_, by linarith⟩
            · rw [nextX_newton, hsum]
              · rw [hsum]
                simp only [s1, leb_fin, decide_eq_false_iff_not]
                linarith
              · rw [hsum]
                simpa [s1] using hz'
            · have := hF.concave d0 _ h0 hz'.le
              have h2 : F' d0 * (d0 - (F d0 - t) / F' d0 - d0) = -(F d0 - t) := by
                field_simp
                ring
              rw [h2] at this
              linarith
        obtain ⟨s2, hs2, hl2⟩ := left_of_next hF hr (o := o) hnx hd1 hle1 (l := 0) rfl hd1
          (.inr ⟨d0, rfl, hlt1, hgt⟩)
        rw [hs2]
        have hT : Trace F F' t o c.tol [d0] s2 [] d1 := {
          left := hl2
          seq := by rw [(step_seq hs2).1, hl2.hx]; rfl
          sorted := by simp
          below := by simp [hd1, hle1]
          progress := fun _ => by
            have := mul_nonneg (hF.nonneg 0 le_rfl) hd1
            simpa using this
          change := ⟨_, step_diff hs2 (d := d0) rfl hl2.hx, fun _ h => by simp at h⟩
          rate := by
            have h9 := hF.anti 0 d1 le_rfl hd1
            have h10 := hF.nonneg d1 hd1
            have h11 : 0 ≤ F d1 := by rw [← hF.zero]; exact hF.mono 0 _ le_rfl hd1
            rw [List.length_nil, pow_zero, one_mul]
            exact mul_le_mul (by linarith) h9 h10 ht
          count := fun k hk => by simp at hk
          chain := by simp }
        obtain ⟨s3, hs3, hb3, ds, d, hT3⟩ := loop_total c
          (P := fun s => Book c s ∧ ∃ ds d, Trace F F' t o c.tol [d0] s ds d)
          (by
            rintro s ⟨hb, ds, d, hT⟩ hcon
            obtain ⟨s', h1, ds', d', h2⟩ := hT.step hF hr hat hrt ht hcon
            exact ⟨s', h1, book_step hb hcon h1, ds', d', h2⟩)
          m s2 ⟨book_step hb hcon hs2, [], d1, hT⟩
        refine ⟨mkSolution c s3, ?_, .inr ⟨ds, d, hT3.finish hb3
          (.inr (loop_stops c _ _ _ ?_ hs3))⟩⟩
        · show (loop c m s2).map _ = _
          rw [hs3]; rfl
        · rw [step_n_iter hs2, hm]
          show m + 1 ≤ (0 + 1) + m
          omega
      · rw [if_neg hcon]
        refine ⟨_, rfl, .inl ⟨rfl, rfl, ?_⟩⟩
        have hcon' : continues c s1 = false := by simpa using hcon
        simp only [continues, s1, ltb_fin', Bool.and_eq_false_iff, decide_eq_false_iff_not,
          not_lt] at hcon'
        rcases hcon' with (h | h) | h
        · left
          simpa [mkSolution, s1, Cfg.tol] using h
        · right; left
          simpa [mkSolution, s1] using h
        · right; right
          simpa [mkSolution, s1] using h

end Solver

end

end Verif
