import Verif.Round.SolverLemmas

/-!
# The solver in double precision: Newton iteration from zero
-/

namespace Verif

namespace Round

open XR
open Verif.Solver (Obj Cfg St signs bracketInit bracketLoop)

/-- Real-number content of one iteration.  `e` is the function at the current point, `y` its computed
value, `A` the computed distance from the target `t`. -/
theorem step_real {ε rtol t p b A dx d d' e y : ℝ} (hu : ulp2 ≤ ε) (hε : 16 * ε ≤ rtol)
    (hr : rtol ≤ 1 / 10) (ht : 0 < t) (he : 0 ≤ e) (hy : Within ε e y)
    (hAy : Within ulp2 (t - y) A) (hA : 0 < A) (hAr : 0.999 * (rtol * t) ≤ A) (hp : 0 < p)
    (hb : Within ε p b) (hdx : Within ulp2 (A / b) dx) (hd' : Within ulp2 (d + dx) d') (hd : 0 ≤ d)
    (hdp : d * p ≤ e) :
    p * (d' - d) ≤ t * (1 + 5 * ε) - e ∧ 0.9 * (rtol * t) ≤ p * (d' - d) ∧
      (p * (d' - d) ≤ 1.01 * (rtol * e) → t - e ≤ 1.2 * (rtol * t)) := by
  have u0 := ulp2_pos
  have us := ulp2_small
  have hε1 : ε ≤ 1 / 160 := by linarith
  obtain ⟨k1, k2⟩ := newton_real hu hε1 hp hb hA hdx hd' hd hdp
  have hty : 0 < t - y := by
    by_contra hcon
    push Not at hcon
    nlinarith [hAy.2]
  have he1 : e ≤ 160 / 159 * t := by
    have h1 := hy.1
    have h2 : e * ε ≤ e * (1 / 160) := mul_le_mul_of_nonneg_left hε1 he
    linarith
  have hue : ulp2 * e ≤ ε * e := mul_le_mul_of_nonneg_right hu he
  have hee : ε * e ≤ ε * (160 / 159 * t) := mul_le_mul_of_nonneg_left he1 (by linarith)
  have hrt : 16 * (ε * t) ≤ rtol * t := by nlinarith
  have hA1 : A ≤ (t - e + ε * e) * (1 + ε) := by
    refine hAy.2.trans (mul_le_mul ?_ (by linarith) (by linarith) ?_)
    · linarith [hy.1]
    · linarith [hy.1]
  refine ⟨?_, ?_, ?_⟩
  · obtain ⟨X, hX⟩ : ∃ X, X = t - e + ε * e := ⟨_, rfl⟩
    rw [← hX] at hA1
    have hX0 : 0 ≤ X := by linarith [hy.1]
    have c1 : A * (1 + 3.3 * ε) ≤ X * (1 + ε) * (1 + 3.3 * ε) :=
      mul_le_mul_of_nonneg_right hA1 (by linarith)
    have c2 : (1 + ε) * (1 + 3.3 * ε) ≤ 1 + 4.4 * ε := by nlinarith
    have c3 : X * ((1 + ε) * (1 + 3.3 * ε)) ≤ X * (1 + 4.4 * ε) :=
      mul_le_mul_of_nonneg_left c2 hX0
    have c4 : ε * X = ε * t - ε * e + ε * (ε * e) := by rw [hX]; ring
    have c5 : ε * (ε * e) ≤ 1 / 160 * (ε * e) :=
      mul_le_mul_of_nonneg_right hε1 (mul_nonneg (by linarith) he)
    have c6 : 0 ≤ ε * t := mul_nonneg (by linarith) ht.le
    have c7 : 0 ≤ ε * e := mul_nonneg (by linarith) he
    nlinarith
  · nlinarith
  · intro h
    have c1 : rtol * e ≤ rtol * (160 / 159 * t) := mul_le_mul_of_nonneg_left he1 (by linarith)
    have c2 : A ≤ 1.13 * (rtol * t) := by nlinarith
    have c3 : (t - y) * (1 - 1 / 1000000) ≤ A := by
      refine le_trans (mul_le_mul_of_nonneg_left ?_ hty.le) hAy.1
      linarith
    have c4 : y ≤ e + ε * e := by linarith [hy.2]
    nlinarith

/-- The function handed to the solver computes `E` and `E'` with a relative error of at most `ε`
on `[0, D]`, the target `t` is reached before `D`, and nothing overflows or underflows. -/
structure Setup (func : XR → XR × XR) (E E' : ℝ → ℝ) (t atol rtol ε dmin D : ℝ) : Prop where
  obj : Obj E E'
  acc : ∀ d ∈ doubles, 0 ≤ d → d ≤ D → (d = 0 ∨ dmin ≤ d) →
    ∃ y ∈ doubles, ∃ b ∈ doubles, func (fin d) = (fin y, fin b) ∧ Within ε (E d) y ∧
      Within ε (E' d) b
  hu : ulp2 ≤ ε
  hε : 16 * ε ≤ rtol
  hr : rtol ≤ 1 / 10
  ht : 0 < t
  tm : t ∈ doubles
  am : atol ∈ doubles
  rm : rtol ∈ doubles
  a0 : 0 ≤ atol
  hD : t * (1 + 5 * ε) < E D
  D0 : 0 ≤ D
  hmin : 2 * dmin * E' 0 ≤ t
  rp : 1 / big ≤ E' D
  rp0 : E' 0 ≤ big
  rt : t ≤ big
  rrt : 1 / big ≤ rtol * t
  ra : atol ≤ big
  rD : D ≤ big
  rmin : 1 / big ≤ dmin

namespace Setup

variable {func : XR → XR × XR} {E E' : ℝ → ℝ} {t atol rtol ε dmin D : ℝ}

theorem tol (h : Setup func E E' t atol rtol ε dmin D) {m : ℕ} :
    ∃ τ : ℝ, Solver.tol binary64 (Fit.cfg func t ⟨atol, rtol, m⟩) = fin τ ∧
      0.999 * (rtol * t) ≤ τ ∧ τ ≤ 1.001 * (atol + rtol * t) := by
  have u0 := ulp2_pos
  have us := ulp2_small
  have B := big_ge
  have hrt : 0 < rtol * t := lt_of_lt_of_le (by have := big_pos; positivity) h.rrt
  have r1 : rtol * t ≤ big := by nlinarith [h.hr, h.rt, h.ht]
  have b5 : big ≤ big ^ 5 := le_self_pow₀ (by linarith) (by norm_num)
  have b5' : 2 * big + 2 * big ≤ big ^ 5 := by
    have : big ^ 5 = big ^ 4 * big := by ring
    have h4 : 4 ≤ big ^ 4 := le_trans (by linarith) (le_self_pow₀ (by linarith) (by norm_num))
    nlinarith
  obtain ⟨w, wm, ew, w1, w2⟩ := range_within (v := rtol * t)
    ((one_div_le_one_div_of_le big_pos b5).trans h.rrt) (r1.trans b5)
  have w0 : 0 ≤ w := le_trans (mul_nonneg hrt.le (by linarith)) w1
  have w3 : w ≤ 2 * big := by nlinarith
  obtain ⟨τ, _, eτ, τ1, τ2⟩ := add_within h.am wm h.a0 w0
    (big_le_top (by linarith [h.ra]))
  refine ⟨τ, ?_, ?_, ?_⟩
  · show binary64.add (fin atol) (toDouble (rtol * t)) = _
    rw [ew]
    exact eτ
  · have := h.a0
    nlinarith
  · have := h.a0
    nlinarith

/-- Invariant of the loop: the current point is `d`, the computed distance from the target `a`. -/
structure Inv (E E' : ℝ → ℝ) (t rtol ε dmin D : ℝ) (s : St) (d a b : ℝ) : Prop where
  hx : s.x = fin d
  mem : d ∈ doubles
  d0 : 0 ≤ d
  dm : d = 0 ∨ dmin ≤ d
  hE : E d ≤ t * (1 + 5 * ε)
  hf : s.f = fin a
  hp : s.f_p = fin b
  am : a ∈ doubles
  bm : b ∈ doubles
  hb : Within ε (E' d) b
  neg : a < 0 → ∃ y, Within ε (E d) y ∧ Within ulp2 (t - y) (-a)
  pos : 0 ≤ a → a ≤ 6.5 * ε * t ∧ t ≤ E d * (1 + ε)
  norm : s.norm = fin |a|
  brk : a < 0 → s.x_u = pinf ∧ s.x_l = fin d
  diff : ∃ v, s.diff = fin v ∧ (v ≤ rtol → t - E d ≤ 1.2 * (rtol * t))
  nseq : s.norm_seq.getLastD nan = s.norm
  dseq : s.diff_seq.getLastD nan = s.diff
  prog : 0.9 * (rtol * t) * s.n_iter ≤ E' 0 * d
  seq : ∃ l : List ℝ, s.x_seq = (l ++ [d]).map fin ∧ (l ++ [d]).Pairwise (· < ·)

theorem le_D (h : Setup func E E' t atol rtol ε dmin D) {d : ℝ} (hE : E d ≤ t * (1 + 5 * ε)) :
    d ≤ D := by
  by_contra hcon
  push Not at hcon
  linarith [h.obj.mono D d h.D0 hcon.le, h.hD]

/-- Evaluation at a point. -/
theorem eval (h : Setup func E E' t atol rtol ε dmin D) {d : ℝ} (mem : d ∈ doubles) (d0 : 0 ≤ d)
    (dm : d = 0 ∨ dmin ≤ d) (hE : E d ≤ t * (1 + 5 * ε)) :
    ∃ a ∈ doubles, ∃ b ∈ doubles, binary64.add (func (fin d)).1 (-(fin t)) = fin a ∧
      (func (fin d)).2 = fin b ∧ Within ε (E' d) b ∧
      (a < 0 → ∃ y, Within ε (E d) y ∧ Within ulp2 (t - y) (-a)) ∧
      (0 ≤ a → a ≤ 6.5 * ε * t ∧ t ≤ E d * (1 + ε)) := by
  have u0 := ulp2_pos
  have us := ulp2_small
  have B := big_ge
  have hu := h.hu
  have hε := h.hε
  have hr := h.hr
  have ht := h.ht
  have hE0 : 0 ≤ E d := by rw [← h.obj.zero]; exact h.obj.mono 0 d le_rfl d0
  obtain ⟨y, ym, b, bm, ef, y1, b1⟩ := h.acc d mem d0 (h.le_D hE) dm
  have y0 : 0 ≤ y := le_trans (mul_nonneg hE0 (by linarith)) y1.1
  have hεt : 0 ≤ ε * t := mul_nonneg (by linarith) ht.le
  have yt : y ≤ t * (1 + 6.1 * ε) := by
    refine y1.2.trans ((mul_le_mul_of_nonneg_right hE (by linarith)).trans ?_)
    have : (1 + 5 * ε) * (1 + ε) ≤ 1 + 6.1 * ε := by nlinarith
    nlinarith
  have b5 : 2 * big ≤ big ^ 5 := by
    have : big ^ 5 = big ^ 4 * big := by ring
    have h4 : 2 ≤ big ^ 4 := le_trans (by linarith) (le_self_pow₀ (by linarith) (by norm_num))
    nlinarith
  have rt := h.rt
  have yb : y ≤ 2 * big := by nlinarith
  have e1 : binary64.add (func (fin d)).1 (-(fin t)) = toDouble (y - t) := by
    rw [ef]
    show toDouble (y + -t) = _
    rw [← sub_eq_add_neg]
  rw [e1, ef]
  rcases lt_or_ge y t with hy | hy
  · obtain ⟨v, vm, ev, hv⟩ := sub_neg_within ym h.tm hy.le (big_le_top (by linarith))
    have v0 : 0 < v := lt_of_lt_of_le (mul_pos (by linarith) (by linarith)) hv.1
    refine ⟨-v, Faithful.binary64.neg_mem _ vm, b, bm, ev, rfl, b1, ?_, ?_⟩
    · intro _
      exact ⟨y, y1, by rw [neg_neg]; exact hv⟩
    · intro hc
      linarith
  · obtain ⟨v, vm, ev, hv⟩ := sub_within h.tm ym hy (big_le_top (by linarith))
    have v0 : 0 ≤ v := le_trans (mul_nonneg (by linarith) (by linarith)) hv.1
    refine ⟨v, vm, b, bm, ev, rfl, b1, ?_, ?_⟩
    · intro hc
      linarith
    · intro _
      refine ⟨?_, hy.trans y1.2⟩
      refine hv.2.trans ?_
      have : (y - t) * (1 + ulp2) ≤ (6.1 * (ε * t)) * (1 + ulp2) :=
        mul_le_mul_of_nonneg_right (by linarith) (by linarith)
      nlinarith

/-- The computed relative change of the parameter. -/
theorem change (h : Setup func E E' t atol rtol ε dmin D) {d d' : ℝ} (mem : d ∈ doubles)
    (d'm : d' ∈ doubles) (dm : d = 0 ∨ dmin ≤ d) (dd : d < d') (dD : d ≤ D)
    (d'D : d' ≤ D) (p0 : 0 < E' d) (p2 : E' d ≤ big) (hdp : d * E' d ≤ E d)
    (k2 : 0.9 * (rtol * t) ≤ E' d * (d' - d))
    (k3 : E' d * (d' - d) ≤ 1.01 * (rtol * E d) → t - E d ≤ 1.2 * (rtol * t)) :
    ∃ v, (if !((fin d).isZero) && !((fin d).isInf) then
      (Solver.npDiv binary64 (binary64.add (fin d') (-(fin d))) (fin d)).abs else fin 1) = fin v ∧
      (v ≤ rtol → t - E d ≤ 1.2 * (rtol * t)) := by
  have u0 := ulp2_pos
  have us := ulp2_small
  have B := big_ge
  have B0 := big_pos
  have hr := h.hr
  have hε := h.hε
  have hu := h.hu
  have bsq : big ≤ big ^ 2 := le_self_pow₀ (by linarith) (by norm_num)
  have hrt : 0 < rtol * t := lt_of_lt_of_le (by positivity) h.rrt
  have big3 : 100 * big ^ 2 ≤ big ^ 5 := by
    have : big ^ 5 = big ^ 3 * big ^ 2 := by ring
    have h3 : 100 ≤ big ^ 3 := le_trans (by linarith) (le_self_pow₀ (by linarith) (by norm_num))
    nlinarith [pow_pos B0 2]
  rcases dm with h0 | h0
  · refine ⟨1, ?_, fun hv => ?_⟩
    · have hz : (fin d).isZero = true := by simp [h0]
      rw [hz]
      rfl
    · linarith
  · have dmin0 : 0 < dmin := lt_of_lt_of_le (by positivity) h.rmin
    have dpos : 0 < d := by linarith
    obtain ⟨w, wm, ew, hw⟩ := sub_within mem d'm dd.le (big_le_top (by linarith [h.rD]))
    have w1 : (d' - d) * (1 - ulp2) ≤ w := hw.1
    -- lower bound of the change
    have c1 : 1 / (2 * big ^ 2) ≤ d' - d := by
      have e : 1 / (2 * big ^ 2) * big = 1 / 2 * (1 / big) := by field_simp
      have hk : 1 / 2 * (1 / big) ≤ big * (d' - d) := by
        have := mul_le_mul_of_nonneg_right p2 (sub_nonneg.2 dd.le)
        linarith [h.rrt]
      rw [← e, mul_comm] at hk
      exact le_of_mul_le_mul_left hk B0
    have w0 : 1 / (4 * big ^ 2) ≤ w := by
      refine le_trans ?_ w1
      have e : 1 / (4 * big ^ 2) = 1 / (2 * big ^ 2) * (1 / 2) := by field_simp; norm_num
      rw [e]
      exact mul_le_mul c1 (by linarith) (by norm_num) (by linarith)
    have wpos : 0 < w := lt_of_lt_of_le (by positivity) w0
    have w2 : w ≤ 2 * big := by
      refine hw.2.trans ?_
      have := h.rD
      nlinarith
    have dbig : d ≤ big := dD.trans h.rD
    have r1 : 1 / (4 * big ^ 3) ≤ w / d := by
      rw [le_div_iff₀ dpos]
      refine le_trans ?_ w0
      have : 1 / (4 * big ^ 3) * d ≤ 1 / (4 * big ^ 3) * big :=
        mul_le_mul_of_nonneg_left dbig (by positivity)
      refine this.trans (le_of_eq ?_)
      field_simp
    have r2 : w / d ≤ 2 * big ^ 2 := by
      rw [div_le_iff₀ dpos]
      have h1 : 1 / big ≤ d := h.rmin.trans h0
      have h2 : 2 * big ^ 2 * (1 / big) ≤ 2 * big ^ 2 * d :=
        mul_le_mul_of_nonneg_left h1 (by positivity)
      have h3 : 2 * big ^ 2 * (1 / big) = 2 * big := by field_simp
      linarith
    have big4 : 4 * big ^ 3 ≤ big ^ 5 := by
      have : big ^ 5 = big ^ 2 * big ^ 3 := by ring
      have h2 : 4 ≤ big ^ 2 := by linarith
      nlinarith [pow_pos B0 3]
    obtain ⟨v, vm, ev, hv⟩ := range_within (v := w / d)
      ((one_div_le_one_div_of_le (by positivity) big4).trans r1) (by linarith)
    have wd0 : 0 < w / d := by positivity
    have v0 : 0 < v := lt_of_lt_of_le (mul_pos wd0 (by linarith)) hv.1
    refine ⟨v, ?_, fun hvr => k3 ?_⟩
    · have hz : (fin d).isZero = false := isZero_eq_false dpos.ne'
      have hadd : binary64.add (fin d') (-(fin d)) = fin w := by
        show toDouble (d' + -d) = _
        rw [← sub_eq_add_neg]
        exact ew
      rw [hadd, hz]
      show XR.abs (Solver.npDiv binary64 (fin w) (fin d)) = _
      unfold Solver.npDiv
      rw [hz]
      show XR.abs (roundXR (fin w / fin d)) = _
      rw [fin_div_fin _ _ dpos.ne']
      show XR.abs (toDouble (w / d)) = _
      rw [ev]
      show fin |v| = _
      rw [abs_of_pos v0]
    · -- a small relative change means a small distance from the target
      have c2 : w / d * (1 - 1 / 1000000) ≤ rtol :=
        le_trans (mul_le_mul_of_nonneg_left (by linarith) wd0.le) (hv.1.trans hvr)
      have c3 : w * (1 - 1 / 1000000) ≤ rtol * d := by
        have := mul_le_mul_of_nonneg_right c2 dpos.le
        have e : w / d * (1 - 1 / 1000000) * d = w * (1 - 1 / 1000000) := by field_simp
        rwa [e] at this
      have c4 : (d' - d) * (1 - 1 / 1000000) ≤ w :=
        le_trans (mul_le_mul_of_nonneg_left (by linarith) (by linarith)) w1
      have c5 : d' - d ≤ 1.01 * (rtol * d) := by
        have : 0 ≤ rtol * d := mul_nonneg (by linarith) dpos.le
        linarith
      have c6 : E' d * (d' - d) ≤ E' d * (1.01 * (rtol * d)) :=
        mul_le_mul_of_nonneg_left c5 p0.le
      have c7 : rtol * (d * E' d) ≤ rtol * E d := mul_le_mul_of_nonneg_left hdp (by linarith)
      linarith

/-- One iteration. -/
theorem step (h : Setup func E E' t atol rtol ε dmin D) {m : ℕ} {s : St} {d a b : ℝ}
    (i : Inv E E' t rtol ε dmin D s d a b)
    (hc : Solver.continues binary64 (Fit.cfg func t ⟨atol, rtol, m⟩) s = true) :
    ∃ s' d' a' b', Solver.step binary64 (Fit.cfg func t ⟨atol, rtol, m⟩) s = .ok s' ∧
      Inv E E' t rtol ε dmin D s' d' a' b' ∧ s'.n_iter = s.n_iter + 1 := by
  have u0 := ulp2_pos
  have us := ulp2_small
  have B := big_ge
  have B0 := big_pos
  have hu := h.hu
  have hε := h.hε
  have hr := h.hr
  have ht := h.ht
  obtain ⟨τ, eτ, τ1, _⟩ := h.tol (m := m)
  have hrt : 0 < rtol * t := lt_of_lt_of_le (by positivity) h.rrt
  have hrε : 16 * (ε * t) ≤ rtol * t := by nlinarith
  -- the computed distance is negative and larger than the tolerance
  have ha : τ < |a| := by
    unfold Solver.continues at hc
    rw [eτ, i.norm] at hc
    simp only [Bool.and_eq_true, ltb_fin', decide_eq_true_eq] at hc
    exact hc.1.1
  have a0 : a < 0 := by
    by_contra hcon
    push Not at hcon
    have := (i.pos hcon).1
    rw [abs_of_nonneg hcon] at ha
    nlinarith
  rw [abs_of_neg a0] at ha
  obtain ⟨y, hy, hAy⟩ := i.neg a0
  obtain ⟨xu, xl⟩ := i.brk a0
  have hE0 : 0 ≤ E d := by rw [← h.obj.zero]; exact h.obj.mono 0 d le_rfl i.d0
  have dD := h.le_D i.hE
  -- the derivative
  have p1 : 1 / big ≤ E' d := h.rp.trans (h.obj.anti d D i.d0 dD)
  have p2 : E' d ≤ big := (h.obj.anti 0 d le_rfl i.d0).trans h.rp0
  have p0 : 0 < E' d := lt_of_lt_of_le (by positivity) p1
  have ib := i.hb
  have b1 : E' d * (1 / 2) ≤ b := (mul_le_mul_of_nonneg_left (by linarith) p0.le).trans ib.1
  have b2 : b ≤ E' d * 2 := ib.2.trans (mul_le_mul_of_nonneg_left (by linarith) p0.le)
  have b0 : 0 < b := lt_of_lt_of_le (by positivity) b1
  have hdp : d * E' d ≤ E d := by
    have := h.obj.concave d 0 i.d0 le_rfl
    rw [h.obj.zero] at this
    linarith
  -- the Newton step
  have A2 : -a ≤ 2 * t := by
    have y0 : 0 ≤ y := le_trans (mul_nonneg hE0 (by linarith)) hy.1
    have := hAy.2
    have h2 : (t - y) * (1 + ulp2) ≤ t * (1 + ulp2) :=
      mul_le_mul_of_nonneg_right (by linarith) (by linarith)
    nlinarith
  have A1 : 1 / 2 / big ≤ -a := by
    have := h.rrt
    have e : 1 / 2 / big = 1 / 2 * (1 / big) := by ring
    rw [e]
    linarith
  have A0 : 0 < -a := by linarith
  have bb : 4 ≤ big ^ 3 := le_trans (by linarith) (le_self_pow₀ (by linarith) (by norm_num))
  have big2 : 4 * big ^ 2 ≤ big ^ 5 := by
    have : big ^ 5 = big ^ 3 * big ^ 2 := by ring
    nlinarith [pow_pos B0 2]
  have q1 : 1 / (4 * big ^ 2) ≤ -a / b := by
    rw [le_div_iff₀ b0]
    have : 1 / (4 * big ^ 2) * b ≤ 1 / (4 * big ^ 2) * (2 * big) :=
      mul_le_mul_of_nonneg_left (by linarith) (by positivity)
    refine this.trans (le_trans (le_of_eq ?_) A1)
    field_simp
    ring
  have q2 : -a / b ≤ 4 * big ^ 2 := by
    rw [div_le_iff₀ b0]
    have h1 : 1 / big * (1 / 2) ≤ b := (mul_le_mul_of_nonneg_right p1 (by norm_num)).trans b1
    have h2 : 4 * big ^ 2 * (1 / big * (1 / 2)) ≤ 4 * big ^ 2 * b :=
      mul_le_mul_of_nonneg_left h1 (by positivity)
    have h3 : 4 * big ^ 2 * (1 / big * (1 / 2)) = 2 * big := by field_simp; norm_num
    linarith [h.rt]
  obtain ⟨dx, dxm, edx, hdx⟩ := range_within (v := -a / b)
    ((one_div_le_one_div_of_le (by positivity) big2).trans q1) (q2.trans big2)
  have dx1 : 1 / (8 * big ^ 2) ≤ dx := by
    have e : 1 / (8 * big ^ 2) = 1 / (4 * big ^ 2) * (1 / 2) := by field_simp; norm_num
    rw [e]
    refine le_trans ?_ hdx.1
    exact mul_le_mul q1 (by linarith) (by norm_num) (le_trans (by positivity) q1)
  have dx0 : 0 < dx := lt_of_lt_of_le (by positivity) dx1
  have dx2 : dx ≤ 8 * big ^ 2 := by
    refine hdx.2.trans ?_
    have : -a / b * (1 + ulp2) ≤ -a / b * 2 :=
      mul_le_mul_of_nonneg_left (by linarith) (le_trans (by positivity) q1)
    linarith
  have big3 : 100 * big ^ 2 ≤ big ^ 5 := by
    have : big ^ 5 = big ^ 3 * big ^ 2 := by ring
    have h3 : 100 ≤ big ^ 3 := le_trans (by linarith) (le_self_pow₀ (by linarith) (by norm_num))
    nlinarith [pow_pos B0 2]
  have bsq : big ≤ big ^ 2 := le_self_pow₀ (by linarith) (by norm_num)
  obtain ⟨d', d'm, ed', hd'⟩ := add_within i.mem dxm i.d0 dx0.le
    (big_le_top (by linarith [h.rD]))
  obtain ⟨k1, k2, k3⟩ := step_real hu hε hr ht hE0 hy hAy A0 (by linarith) p0 ib hdx hd' i.d0 hdp
  have dd : d < d' := by
    by_contra hcon
    push Not at hcon
    have : E' d * (d' - d) ≤ 0 := mul_nonpos_of_nonneg_of_nonpos p0.le (by linarith)
    linarith
  have hE' : E d' ≤ t * (1 + 5 * ε) := by
    have := h.obj.concave d d' i.d0 (by linarith [i.d0])
    linarith
  have d'D := h.le_D hE'
  have p0' : E' d ≤ E' 0 := h.obj.anti 0 d le_rfl i.d0
  have dm' : d' = 0 ∨ dmin ≤ d' := by
    rcases i.dm with h0 | h0
    · right
      subst h0
      have hmin := h.hmin
      obtain ⟨k, -⟩ := newton_real hu (by linarith : ε ≤ 1 / 160) p0 ib A0 hdx hd' le_rfl hdp
      have k' := (newton_real hu (by linarith : ε ≤ 1 / 160) p0 ib A0 hdx hd' le_rfl hdp).2
      rw [h.obj.zero] at hy k'
      have y0 : y = 0 := by
        have h1 := hy.1
        have h2 := hy.2
        rw [zero_mul] at h1 h2
        linarith
      rw [y0, sub_zero] at hAy
      have h3 := hAy.1
      have h4 : E' 0 * dmin ≤ E' 0 * d' := by nlinarith
      exact le_of_mul_le_mul_left h4 p0
    · right; linarith
  obtain ⟨a', a'm, b', b'm, ea', eb', hb', neg', pos'⟩ :=
    h.eval d'm (by linarith [i.d0]) dm' hE'
  have b'0 : 0 < b' := by
    have p1' : 0 < E' d' := lt_of_lt_of_le (by positivity)
      (h.rp.trans (h.obj.anti d' D (by linarith [i.d0]) d'D))
    exact lt_of_lt_of_le (mul_pos p1' (by linarith)) hb'.1
  -- the next point of the model
  have hnext : Solver.nextX binary64 (Fit.cfg func t ⟨atol, rtol, m⟩) s = fin d' := by
    have hdxm : Solver.newtonDx binary64 (Fit.cfg func t ⟨atol, rtol, m⟩) s = fin dx := by
      unfold Solver.newtonDx Solver.npDiv
      rw [i.hp, i.hf]
      have hz : (fin b).isZero = false := isZero_eq_false b0.ne'
      rw [hz]
      show roundXR (fin (-a) / fin b) = _
      rw [fin_div_fin _ _ b0.ne']
      exact edx
    have hadd : binary64.add s.x (fin dx) = fin d' := by rw [i.hx]; exact ed'
    unfold Solver.nextX
    simp only [hdxm, hadd, xu, xl]
    have h1 : leb pinf (fin d') = false := rfl
    have h2 : leb (fin d') (fin d) = false := by simp [dd]
    rw [h1, h2]
    rfl
  -- the new quantity `diff`
  obtain ⟨v, hv, hv'⟩ := h.change i.mem d'm i.dm dd dD d'D p0 p2 hdp k2 k3
  rw [← i.hx] at hv
  -- the new state
  obtain ⟨s1, hs1⟩ : ∃ s1, s1 = Solver.evalAt binary64 (Fit.cfg func t ⟨atol, rtol, m⟩) s (fin d') :=
    ⟨_, rfl⟩
  have f1 : s1.f = fin a' := by rw [hs1]; exact ea'
  have f2 : s1.f_p = fin b' := by rw [hs1]; exact eb'
  have f3 : s1.x = fin d' := by rw [hs1]; rfl
  have f4 : s1.x_u = pinf := by rw [hs1]; exact xu
  have f5 : s1.x_l = fin d := by rw [hs1]; exact xl
  obtain ⟨s2, hs2, g1, g2, g3, g4, g5, g6⟩ : ∃ s2, bracketLoop s1 = .ok s2 ∧ s2.x = s1.x ∧
      s2.f = s1.f ∧ s2.f_p = s1.f_p ∧ (a' < 0 → s2.x_u = pinf ∧ s2.x_l = fin d') ∧
      s2.n_iter = s1.n_iter ∧ (s2.x_seq = s1.x_seq ∧ s2.norm_seq = s1.norm_seq ∧
        s2.diff_seq = s1.diff_seq) := by
    unfold bracketLoop
    rw [Verif.Solver.signs_eq f1 f2 (by rw [f5, f3]; simp [dd.le]) (by rw [f3, f4]; rfl)]
    rcases lt_trichotomy a' 0 with ha' | ha' | ha'
    · have hneg := mul_neg_of_neg_of_pos ha' b'0
      rw [if_neg hneg.not_gt, if_pos hneg]
      exact ⟨_, rfl, rfl, rfl, rfl, fun _ => ⟨f4, f3⟩, rfl, rfl, rfl, rfl⟩
    · have hz : ¬ 0 < a' * b' := by rw [ha']; simp
      have hz' : ¬ a' * b' < 0 := by rw [ha']; simp
      rw [if_neg hz, if_neg hz']
      refine ⟨s1, ?_, rfl, rfl, rfl, fun hc => absurd hc (by linarith), rfl, rfl, rfl, rfl⟩
      show (if s1.f_p.isZero then _ else if s1.f.isZero then Except.ok s1 else _) = _
      have z1 : s1.f_p.isZero = false := by rw [f2]; exact isZero_eq_false b'0.ne'
      have z2 : s1.f.isZero = true := by rw [f1, ha']; simp
      rw [z1, z2]
      rfl
    · have hpos := mul_pos ha' b'0
      rw [if_pos hpos]
      exact ⟨_, rfl, rfl, rfl, rfl, fun hc => absurd hc (by linarith), rfl, rfl, rfl, rfl⟩
  obtain ⟨g6, g7, g8⟩ := g6
  refine ⟨Solver.record binary64 s.x s2, d', a', b', ?_, ?_, ?_⟩
  · unfold Solver.step
    rw [hnext, ← hs1, hs2]
    rfl
  · have hdiff : (Solver.record binary64 s.x s2).diff = fin v := by
      show (if !(s.x.isZero) && !(s.x.isInf) then
        (Solver.npDiv binary64 (binary64.add s2.x (-s.x)) s.x).abs else fin 1) = _
      rw [g1, f3]
      exact hv
    have hn1 : s1.n_iter = s.n_iter := by rw [hs1]; rfl
    have hx1 : s1.x_seq = s.x_seq := by rw [hs1]; rfl
    refine ⟨g1.trans f3, d'm, by linarith [i.d0], dm', hE', g2.trans f1, g3.trans f2, a'm, b'm, hb',
      neg', pos', ?_, g4, ⟨v, hdiff, fun hvr => ?_⟩, ?_, ?_, ?_, ?_⟩
    · show s2.f.abs = _
      rw [g2, f1]
      rfl
    · have := hv' hvr
      have := h.obj.mono d d' i.d0 dd.le
      linarith
    · show (s2.norm_seq ++ [s2.f.abs]).getLastD nan = s2.f.abs
      simp
    · have hlast : ∀ (l : List XR) (x : XR), (l ++ [x]).getLastD nan = x := by simp
      exact hlast _ _
    · show 0.9 * (rtol * t) * ((s2.n_iter + 1 : ℕ) : ℝ) ≤ _
      rw [g5, hn1]
      push_cast
      have := i.prog
      have h2 : E' d * (d' - d) ≤ E' 0 * (d' - d) :=
        mul_le_mul_of_nonneg_right p0' (by linarith)
      linarith
    · obtain ⟨l, hl, hl'⟩ := i.seq
      refine ⟨l ++ [d], ?_, ?_⟩
      · show s2.x_seq ++ [s2.x] = _
        rw [g6, hx1, hl, g1, f3]
        simp
      · rw [List.pairwise_append]
        refine ⟨hl', List.pairwise_singleton _ _, ?_⟩
        intro u hu2 w hw
        rw [List.mem_singleton] at hw
        subst hw
        rw [List.mem_append, List.mem_singleton] at hu2
        rcases hu2 with hu2 | hu2
        · rw [List.pairwise_append] at hl'
          exact (hl'.2.2 u hu2 d (List.mem_singleton_self d)).trans dd
        · rw [hu2]; exact dd
  · show s2.n_iter + 1 = _
    rw [g5, hs1]
    rfl

/-- The loop ends without an exception in a state where it would not continue. -/
theorem loop (h : Setup func E E' t atol rtol ε dmin D) {m : ℕ} (fuel : ℕ) :
    ∀ {s : St} {d a b : ℝ}, Inv E E' t rtol ε dmin D s d a b → m ≤ s.n_iter + fuel →
    ∃ s' d' a' b', Solver.loop binary64 (Fit.cfg func t ⟨atol, rtol, m⟩) fuel s = .ok s' ∧
      Inv E E' t rtol ε dmin D s' d' a' b' ∧
      Solver.continues binary64 (Fit.cfg func t ⟨atol, rtol, m⟩) s' = false := by
  induction fuel with
  | zero =>
    intro s d a b i hm
    refine ⟨s, d, a, b, rfl, i, ?_⟩
    unfold Solver.continues
    have : decide (s.n_iter < (Fit.cfg func t ⟨atol, rtol, m⟩).max_iter) = false := by
      have : ¬ s.n_iter < m := by omega
      exact decide_eq_false this
    rw [this]
    simp
  | succ k ih =>
    intro s d a b i hm
    unfold Solver.loop
    by_cases hc : Solver.continues binary64 (Fit.cfg func t ⟨atol, rtol, m⟩) s = true
    · rw [if_pos hc]
      obtain ⟨s', d', a', b', hs, i', hn⟩ := h.step i hc
      rw [hs]
      exact ih i' (by omega)
    · rw [if_neg hc]
      exact ⟨s, d, a, b, rfl, i, by simpa using hc⟩

/-- What the computed distance says about the exact one. -/
theorem close (h : Setup func E E' t atol rtol ε dmin D) {s : St} {d a b : ℝ}
    (i : Inv E E' t rtol ε dmin D s d a b) (hle : t - E d ≤ 1.2 * (rtol * t)) :
    |E d - t| ≤ 1.2 * (atol + rtol * t) := by
  have hu := h.hu
  have := ulp2_pos
  have hε := h.hε
  have hr := h.hr
  have ht := h.ht
  have a0 := h.a0
  have hE := i.hE
  have hrt : 16 * (ε * t) ≤ rtol * t := by nlinarith
  have : 0 ≤ ε * t := mul_nonneg (by linarith) ht.le
  rw [abs_le]
  constructor <;> nlinarith

theorem close_norm (h : Setup func E E' t atol rtol ε dmin D) {s : St} {d a b τ : ℝ}
    (i : Inv E E' t rtol ε dmin D s d a b) (hτ : τ ≤ 1.001 * (atol + rtol * t)) (ha : |a| ≤ τ) :
    |E d - t| ≤ 1.2 * (atol + rtol * t) := by
  have hu := h.hu
  have u0 := ulp2_pos
  have us := ulp2_small
  have hε := h.hε
  have hr := h.hr
  have ht := h.ht
  have a0 := h.a0
  have hE := i.hE
  have hrt : 16 * (ε * t) ≤ rtol * t := by nlinarith
  have h0 : 0 ≤ ε * t := mul_nonneg (by linarith) ht.le
  have hE0 : 0 ≤ E d := by rw [← h.obj.zero]; exact h.obj.mono 0 d le_rfl i.d0
  have hEe : ε * E d ≤ ε * (t * 2) := mul_le_mul_of_nonneg_left (by nlinarith) (by linarith)
  rw [abs_le]
  rcases lt_or_ge a 0 with hneg | hpos
  · obtain ⟨y, hy, hA⟩ := i.neg hneg
    rw [abs_of_neg hneg] at ha
    have h1 := hA.1
    have h2 := hy.2
    have hA0 : 0 < t - y := by
      by_contra hcon
      push Not at hcon
      nlinarith [hA.2]
    have h3 : (t - y) * (1 - 1 / 1000000) ≤ -a :=
      le_trans (mul_le_mul_of_nonneg_left (by linarith) hA0.le) h1
    constructor <;> nlinarith
  · have h2 := (i.pos hpos).2
    constructor <;> nlinarith

/-- The initial state. -/
theorem start (h : Setup func E E' t atol rtol ε dmin D) (m : ℕ) :
    ∃ s1 a b, bracketInit (Solver.init binary64 (Fit.cfg func t ⟨atol, rtol, m⟩) (fin 0)) = .ok s1 ∧
      Inv E E' t rtol ε dmin D s1 0 a b ∧ s1.n_iter = 0 ∧
      (Solver.init binary64 (Fit.cfg func t ⟨atol, rtol, m⟩) (fin 0)).norm = fin t := by
  have hu := h.hu
  have u0 := ulp2_pos
  have us := ulp2_small
  have hε := h.hε
  have hr := h.hr
  have ht := h.ht
  have B0 := big_pos
  obtain ⟨s, hs⟩ : ∃ s, s = Solver.init binary64 (Fit.cfg func t ⟨atol, rtol, m⟩) (fin 0) := ⟨_, rfl⟩
  rw [← hs]
  have hE : E 0 ≤ t * (1 + 5 * ε) := by
    rw [h.obj.zero]
    exact mul_nonneg ht.le (by linarith)
  obtain ⟨y, ym, b, bm, ef, y1, b1⟩ := h.acc 0 Faithful.binary64.zero_mem le_rfl h.D0 (.inl rfl)
  have y0 : y = 0 := by
    have h1 := y1.1
    have h2 := y1.2
    rw [h.obj.zero, zero_mul] at h1 h2
    linarith
  have p0 : 0 < E' 0 := lt_of_lt_of_le (by positivity)
    (h.rp.trans (h.obj.anti 0 D le_rfl h.D0))
  have b0 : 0 < b := lt_of_lt_of_le (mul_pos p0 (by linarith)) b1.1
  have tm' : -t ∈ doubles := Faithful.binary64.neg_mem _ h.tm
  have f1 : s.f = fin (-t) := by
    rw [hs]
    show binary64.add (func (fin 0)).1 (-(fin t)) = _
    rw [ef, y0]
    show toDouble (0 + -t) = _
    rw [zero_add]
    exact toDouble_self tm'
  have f2 : s.f_p = fin b := by
    rw [hs]
    show (func (fin 0)).2 = _
    rw [ef]
  have f3 : s.x = fin 0 := by rw [hs]; rfl
  have f4 : s.x_u = pinf := by rw [hs]; rfl
  have f5 : s.x_l = fin 0 := by rw [hs]; rfl
  have hnorm : s.norm = fin |(-t)| := by
    have : s.norm = s.f.abs := by rw [hs]; rfl
    rw [this, f1]
    rfl
  have hneg : -t * b < 0 := mul_neg_of_neg_of_pos (by linarith) b0
  refine ⟨{ s with x_l := s.x, f_l := some (fin (-t)) }, -t, b, ?_, ?_, by rw [hs]; rfl, ?_⟩
  · unfold bracketInit
    rw [Verif.Solver.signs_eq f1 f2 (by rw [f5, f3]; simp) (by rw [f3, f4]; rfl)]
    rw [if_neg hneg.not_gt, if_pos hneg]
  · refine ⟨f3, Faithful.binary64.zero_mem, le_rfl, .inl rfl, hE, f1, f2, tm', bm, b1, ?_, ?_, hnorm,
      fun _ => ⟨f4, f3⟩, ⟨1, by rw [hs]; rfl, fun h1 => by linarith⟩, by rw [hs]; rfl,
      by rw [hs]; rfl, ?_, ⟨[], by rw [hs]; rfl, by simp⟩⟩
    · intro _
      refine ⟨0, ?_, ?_⟩
      · rw [h.obj.zero]
        constructor <;> linarith
      · rw [neg_neg, sub_zero]
        constructor <;> nlinarith
    · intro hc
      linarith
    · have : s.n_iter = 0 := by rw [hs]; rfl
      show 0.9 * (rtol * t) * ((s.n_iter : ℕ) : ℝ) ≤ _
      rw [this]
      simp
  · rw [hnorm, abs_neg, abs_of_pos ht]

/-- The solver started at zero. -/
theorem solve (h : Setup func E E' t atol rtol ε dmin D) (m : ℕ) :
    ∃ r d, Solver.solve binary64 (Fit.cfg func t ⟨atol, rtol, m⟩) (fin 0) = .ok r ∧
      r.x = fin d ∧ d ∈ doubles ∧ 0 ≤ d ∧ d ≤ D ∧ (d = 0 ∨ dmin ≤ d) ∧ E d ≤ t * (1 + 5 * ε) ∧
      (r.max_iter_reached = true ∨ |E d - t| ≤ 1.2 * (atol + rtol * t)) ∧
      (r.converged = true ∨ r.no_change_stop = true → |E d - t| ≤ 1.2 * (atol + rtol * t)) ∧
      0.9 * (rtol * t) * r.n_iter ≤ E' 0 * d ∧
      ∃ l : List ℝ, r.x_seq = (l ++ [d]).map fin ∧ (l ++ [d]).Pairwise (· < ·) := by
  obtain ⟨s1, a, b, hs1, i, hn, hnorm⟩ := h.start m
  have ht := h.ht
  have hrt : 0 < rtol * t := lt_of_lt_of_le (by have := big_pos; positivity) h.rrt
  unfold Solver.solve
  have hguard : (ltb (Fit.cfg func t ⟨atol, rtol, m⟩).x_u (fin 0) ||
      ltb (fin 0) (Fit.cfg func t ⟨atol, rtol, m⟩).x_l) = false := by
    show (ltb pinf (fin 0) || ltb (fin 0) (fin 0)) = false
    simp [ltb]
  simp only [hguard, Bool.false_eq_true, if_false]
  by_cases hat : ltb (Solver.init binary64 (Fit.cfg func t ⟨atol, rtol, m⟩) (fin 0)).norm
      (fin (Fit.cfg func t ⟨atol, rtol, m⟩).atol) = true
  · rw [if_pos hat]
    rw [hnorm] at hat
    have hat' : t < atol := by
      have h1 : ltb (fin t) (fin atol) = true := hat
      simpa using h1
    have hacc : |E 0 - t| ≤ 1.2 * (atol + rtol * t) := by
      rw [h.obj.zero, zero_sub, abs_neg, abs_of_pos ht]
      linarith
    refine ⟨_, 0, rfl, rfl, Faithful.binary64.zero_mem, le_rfl, h.D0, .inl rfl, i.hE, .inr hacc,
      fun _ => hacc, ?_, [], rfl, by simp⟩
    show 0.9 * (rtol * t) * ((0 : ℕ) : ℝ) ≤ _
    simp
  · rw [if_neg hat, hs1]
    obtain ⟨s', d', a', b', hs, i', hc⟩ := h.loop (m := m) m i (by omega)
    obtain ⟨τ, eτ, τ1, τ2⟩ := h.tol (m := m)
    obtain ⟨v, ev, hv⟩ := i'.diff
    refine ⟨Solver.mkSolution binary64 (Fit.cfg func t ⟨atol, rtol, m⟩) s', d', ?_, i'.hx, i'.mem,
      i'.d0, h.le_D i'.hE, i'.dm, i'.hE, ?_, ?_, i'.prog, i'.seq⟩
    · show (Except.map _ (Solver.loop binary64 (Fit.cfg func t ⟨atol, rtol, m⟩) m s1)) = _
      rw [hs]
      rfl
    · unfold Solver.continues at hc
      rw [eτ, i'.norm, ev] at hc
      simp only [ltb_fin', Bool.and_eq_false_iff, decide_eq_false_iff_not, not_lt] at hc
      rcases hc with (hc | hc) | hc
      · exact .inr (h.close_norm i' τ2 hc)
      · left
        exact decide_eq_true hc
      · exact .inr (h.close i' (hv hc))
    · rintro (hcv | hcv)
      · have h1 : leb (s'.norm_seq.getLastD nan)
          (Solver.tol binary64 (Fit.cfg func t ⟨atol, rtol, m⟩)) = true := hcv
        rw [i'.nseq, i'.norm, eτ] at h1
        exact h.close_norm i' τ2 (by simpa using h1)
      · have h1 : leb (s'.diff_seq.getLastD nan) (fin rtol) = true := hcv
        rw [i'.dseq, ev] at h1
        exact h.close i' (hv (by simpa using h1))

end Setup

end Round

end Verif
