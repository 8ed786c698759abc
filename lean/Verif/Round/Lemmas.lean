import Verif.Round.Model
import Mathlib.Tactic.Linarith
import Mathlib.Tactic.Positivity

/-!
# Lemmas on faithful arithmetic
-/

namespace Verif

namespace Round

open XR

variable {F : Set ℝ} {A : Arith}

/-- A representable number between 0 and 1. -/
def Unit (F : Set ℝ) (v : XR) : Prop := ∃ r ∈ F, v = fin r ∧ 0 ≤ r ∧ r ≤ 1

/-- A representable number that is not negative, or `+inf`. -/
def NN (F : Set ℝ) (v : XR) : Prop := v = pinf ∨ ∃ r ∈ F, v = fin r ∧ 0 ≤ r

/-- A number that is not positive, or `-inf`. -/
def NP (v : XR) : Prop := v = ninf ∨ ∃ r : ℝ, v = fin r ∧ r ≤ 0

theorem Unit.nn {v : XR} (h : Unit F v) : NN F v := by
  obtain ⟨r, hr, e, h0, _⟩ := h
  exact .inr ⟨r, hr, e, h0⟩

theorem Unit.zero (hF : Faithful F A) : Unit F 0 := ⟨0, hF.zero_mem, rfl, le_rfl, zero_le_one⟩

theorem Unit.one (hF : Faithful F A) : Unit F 1 := ⟨1, hF.one_mem, rfl, zero_le_one, le_rfl⟩

theorem NP.zero : NP 0 := .inr ⟨0, rfl, le_rfl⟩

theorem near_between {Q : Set ℝ} {x : ℝ} {v : XR} (h : Near F Q (fin x) v) {a b : ℝ} (ha : a ∈ Q)
    (hb : b ∈ Q) (h1 : a ≤ x) (h2 : x ≤ b) : ∃ r ∈ F, v = fin r ∧ a ≤ r ∧ r ≤ b := by
  have hl := h.lower (fin a) ha (by simpa [leb] using h1)
  have hu := h.upper (fin b) hb (by simpa [leb] using h2)
  have hr := h.rep (by simp)
  cases v with
  | fin r => exact ⟨r, hr, rfl, by simpa [leb] using hl, by simpa [leb] using hu⟩
  | pinf => simp [leb] at hu
  | ninf => simp [leb] at hl
  | nan => simp [leb] at hl

theorem near_ge {Q : Set ℝ} {x : ℝ} {v : XR} (h : Near F Q (fin x) v) {a : ℝ} (ha : a ∈ Q)
    (h1 : a ≤ x) : v = pinf ∨ ∃ r ∈ F, v = fin r ∧ a ≤ r := by
  have hl := h.lower (fin a) ha (by simpa [leb] using h1)
  have hr := h.rep (by simp)
  cases v with
  | fin r => exact .inr ⟨r, hr, rfl, by simpa [leb] using hl⟩
  | pinf => exact .inl rfl
  | ninf => simp [leb] at hl
  | nan => simp [leb] at hl

theorem near_le {Q : Set ℝ} {x : ℝ} {v : XR} (h : Near F Q (fin x) v) {b : ℝ} (hb : b ∈ Q)
    (h2 : x ≤ b) : v = ninf ∨ ∃ r ∈ F, v = fin r ∧ r ≤ b := by
  have hu := h.upper (fin b) hb (by simpa [leb] using h2)
  have hr := h.rep (by simp)
  cases v with
  | fin r => exact .inr ⟨r, hr, rfl, by simpa [leb] using hu⟩
  | ninf => exact .inl rfl
  | pinf => simp [leb] at hu
  | nan => simp [leb] at hu

theorem near_pinf {Q : Set ℝ} {v : XR} (h : Near F Q pinf v) : v = pinf := by
  have hl := h.lower pinf trivial rfl
  cases v <;> simp [leb] at hl ⊢

theorem near_ninf {Q : Set ℝ} {v : XR} (h : Near F Q ninf v) : v = ninf := by
  have hl := h.upper ninf trivial rfl
  cases v <;> simp [leb] at hl ⊢

/-- A number that can be represented is its own rounding. -/
theorem near_self {Q : Set ℝ} {x : ℝ} {v : XR} (h : Near F Q (fin x) v) (hx : x ∈ Q) :
    v = fin x := by
  obtain ⟨r, _, e, h1, h2⟩ := near_between h hx hx le_rfl le_rfl
  rw [e, le_antisymm h2 h1]

theorem near_nn (hF : Faithful F A) {x : ℝ} {v : XR} (h : Near F F (fin x) v) (h0 : 0 ≤ x) :
    NN F v := near_ge h hF.zero_mem h0

theorem mul_nn (hF : Faithful F A) {a : XR} (ha : NN F a) {b : ℝ} (hb : 0 < b) :
    NN F (A.mul a (fin b)) := by
  rcases ha with rfl | ⟨r, _, rfl, h0⟩
  · have := hF.mul pinf (fin b)
    rw [pinf_mul_fin_pos hb] at this
    exact .inl (near_pinf this)
  · exact near_nn hF (hF.mul (fin r) (fin b)) (mul_nonneg h0 hb.le)

theorem mul_np (hF : Faithful F A) {a : XR} (ha : a = ninf ∨ ∃ r ∈ F, a = fin r ∧ r ≤ 0) {b : ℝ}
    (hb : 0 < b) : A.mul a (fin b) = ninf ∨ ∃ r ∈ F, A.mul a (fin b) = fin r ∧ r ≤ 0 := by
  rcases ha with rfl | ⟨r, _, rfl, h0⟩
  · have := hF.mul ninf (fin b)
    rw [ninf_mul_fin_pos hb] at this
    exact .inl (near_ninf this)
  · exact near_le (hF.mul (fin r) (fin b)) hF.zero_mem (mul_nonpos_of_nonpos_of_nonneg h0 hb.le)

/-- The product of three positive numbers. -/
theorem prod3_nn (hF : Faithful F A) {d x y : ℝ} (hd : 0 < d) (hx : 0 < x) (hy : 0 < y) :
    NN F (prod3 A (fin d) (fin x) (fin y)) :=
  mul_nn hF (near_nn hF (hF.mul (fin d) (fin x)) (by positivity)) hy

/-- The product of four positive numbers. -/
theorem prod4_nn (hF : Faithful F A) {d x y z : ℝ} (hd : 0 < d) (hx : 0 < x) (hy : 0 < y)
    (hz : 0 < z) : NN F (prod4 A (fin d) (fin x) (fin y) (fin z)) :=
  mul_nn hF (mul_nn hF (near_nn hF (hF.mul (fin d) (fin x)) (by positivity)) hy) hz

/-- `1 + t` is at least 1 and at least `t`. -/
theorem one_add (hF : Faithful F A) {t : ℝ} (ht : t ∈ F) (h0 : 0 ≤ t) :
    A.add 1 (fin t) = pinf ∨ ∃ s ∈ F, A.add 1 (fin t) = fin s ∧ 1 ≤ s ∧ t ≤ s := by
  have h : Near F F (fin (1 + t)) (A.add 1 (fin t)) := hF.add 1 (fin t)
  rcases near_ge h hF.one_mem (by linarith) with e | ⟨s, hs, e, h1⟩
  · exact .inl e
  rcases near_ge h ht (by linarith) with e' | ⟨s', _, e', h2⟩
  · exact .inl e'
  obtain rfl : s = s' := by rw [e] at e'; simpa using e'
  exact .inr ⟨s, hs, e, h1, h2⟩

/-- A number between 0 and 1, divided by a number that is at least as large and at least 1. -/
theorem div_unit (hF : Faithful F A) {t : ℝ} (h0 : 0 ≤ t) {w : XR}
    (hw : w = pinf ∨ ∃ s ∈ F, w = fin s ∧ 1 ≤ s ∧ t ≤ s) : Unit F (A.div (fin t) w) := by
  rcases hw with rfl | ⟨s, _, rfl, h1, h2⟩
  · exact near_between (hF.div (fin t) pinf) hF.zero_mem hF.one_mem le_rfl zero_le_one
  · have := hF.div (fin t) (fin s)
    rw [fin_div_fin t s (by linarith)] at this
    exact near_between this hF.zero_mem hF.one_mem (by positivity)
      ((div_le_one (by linarith)).2 h2)

/-- The same with the sign changed. -/
theorem neg_div_unit (hF : Faithful F A) {t : ℝ} (h0 : 0 ≤ t) {w : XR}
    (hw : w = pinf ∨ ∃ s ∈ F, w = fin s ∧ 1 ≤ s ∧ t ≤ s) :
    ∃ r ∈ F, A.div (-fin t) w = fin r ∧ -1 ≤ r ∧ r ≤ 0 := by
  have hm : (-1 : ℝ) ∈ F := hF.neg_mem 1 hF.one_mem
  rcases hw with rfl | ⟨s, _, rfl, h1, h2⟩
  · exact near_between (hF.div (-fin t) pinf) hm hF.zero_mem (by norm_num) le_rfl
  · have := hF.div (-fin t) (fin s)
    rw [show (-fin t : XR) = fin (-t) from rfl, fin_div_fin (-t) s (by linarith)] at this
    refine near_between this hm hF.zero_mem ?_ ?_
    · rw [neg_div]; exact neg_le_neg ((div_le_one (by linarith)).2 h2)
    · rw [neg_div]; exact neg_nonpos.2 (by positivity)

theorem fit_unit (hF : Faithful F A) {t : XR} (ht : NN F t) :
    Unit F (if t.isInf then 1 else A.div t (A.add 1 t)) := by
  rcases ht with rfl | ⟨r, hr, rfl, h0⟩
  · exact .one hF
  · exact div_unit hF h0 (one_add hF hr h0)

theorem expm1_neg (hF : Faithful F A) {t : XR} (ht : NN F t) : Unit F (-(A.expm1 (-t))) := by
  have h : ∃ r ∈ F, A.expm1 (-t) = fin r ∧ -1 ≤ r ∧ r ≤ 0 := by
    rcases ht with rfl | ⟨r, _, rfl, h0⟩
    · exact near_between (hF.expm1 ninf) (by simp [units]) (by simp [units]) le_rfl (by norm_num)
    · refine near_between (hF.expm1 (fin (-r))) (by simp [units]) (by simp [units]) ?_ ?_
      · linarith [Real.exp_pos (-r)]
      · linarith [Real.exp_le_one_iff.2 (neg_nonpos.2 h0)]
  obtain ⟨r, hr, e, h1, h2⟩ := h
  exact ⟨-r, hF.neg_mem r hr, by rw [e]; rfl, by linarith, by linarith⟩

theorem inv_unit (hF : Faithful F A) {t : XR} (ht : NN F t) :
    Unit F (if t.isInf then 1 else -(A.expm1 (-t))) := by
  by_cases h : t.isInf
  · rw [if_pos h]; exact .one hF
  · rw [if_neg h]; exact expm1_neg hF ht

/-- The logarithm of a number between 0 and 1. -/
theorem log_np (hF : Faithful F A) {p : XR} (hp : Unit F p) : NP (A.log p) := by
  obtain ⟨r, _, rfl, h0, h1⟩ := hp
  have h := hF.log (fin r)
  rcases h0.eq_or_lt with rfl | h0
  · rw [log_fin_zero] at h
    exact .inl (near_ninf h)
  · rw [log_fin_pos h0] at h
    rcases near_le h (b := 0) (by simp [units]) (Real.log_nonpos h0.le h1) with e | ⟨s, _, e, hs⟩
    · exact .inl e
    · exact .inr ⟨s, e, hs⟩

/-- `log1p` of a number between -1 and 0. -/
theorem log1p_np (hF : Faithful F A) {v : XR} (hv : ∃ r ∈ F, v = fin r ∧ -1 ≤ r ∧ r ≤ 0) :
    NP (A.log1p v) := by
  obtain ⟨r, _, rfl, h0, h1⟩ := hv
  have h := hF.log1p (fin r)
  rcases h0.eq_or_lt with rfl | h0
  · rw [show log1p (fin (-1)) = ninf by simp [log1p]] at h
    exact .inl (near_ninf h)
  · rw [log1p_fin_pos (by linarith)] at h
    rcases near_le h (b := 0) (by simp [units]) (Real.log_nonpos (by linarith) (by linarith)) with
      e | ⟨s, _, e, hs⟩
    · exact .inl e
    · exact .inr ⟨s, e, hs⟩

theorem fit_logp (hF : Faithful F A) {t : XR} (ht : NN F t) :
    NP (if t.isInf then 0 else A.log (A.div t (A.add 1 t))) := by
  rcases ht with rfl | ⟨r, hr, rfl, h0⟩
  · exact .zero
  · exact log_np hF (div_unit hF h0 (one_add hF hr h0))

theorem fit_log1mp (hF : Faithful F A) {t : XR} (ht : NN F t) :
    NP (if t.isInf then ninf else A.log1p (A.div (-t) (A.add 1 t))) := by
  rcases ht with rfl | ⟨r, hr, rfl, h0⟩
  · exact .inl rfl
  · exact log1p_np hF (neg_div_unit hF h0 (one_add hF hr h0))

theorem inv_logp (hF : Faithful F A) {t : XR} (ht : NN F t) :
    NP (if t.isInf then 0 else A.log (-(A.expm1 (-t)))) := by
  by_cases h : t.isInf
  · rw [if_pos h]; exact .zero
  · rw [if_neg h]; exact log_np hF (expm1_neg hF ht)

theorem neg_np {t : XR} (ht : NN F t) : NP (-t) := by
  rcases ht with rfl | ⟨r, _, rfl, h0⟩
  · exact .inl rfl
  · exact .inr ⟨-r, rfl, by linarith⟩

theorem inv_log1mp {t : XR} (ht : NN F t) : NP (if t.isInf then ninf else -t) := by
  by_cases h : t.isInf
  · rw [if_pos h]; exact .inl rfl
  · rw [if_neg h]; exact neg_np ht

theorem isZero_eq_false {a : ℝ} (h : a ≠ 0) : (fin a).isZero = false := by simp [isZero, h]

theorem add_nn (hF : Faithful F A) {a b : XR} (ha : NN F a) (hb : NN F b) : NN F (A.add a b) := by
  rcases ha with rfl | ⟨r, _, rfl, hr⟩ <;> rcases hb with rfl | ⟨s, _, rfl, hs⟩
  · exact .inl (near_pinf (hF.add pinf pinf))
  · exact .inl (near_pinf (hF.add pinf (fin s)))
  · exact .inl (near_pinf (hF.add (fin r) pinf))
  · exact near_nn hF (hF.add (fin r) (fin s)) (by positivity)

theorem add_np (hF : Faithful F A) {a b : XR} (ha : NP a) (hb : NP b) : NP (A.add a b) := by
  rcases ha with rfl | ⟨r, rfl, hr⟩ <;> rcases hb with rfl | ⟨s, rfl, hs⟩
  · exact .inl (near_ninf (hF.add ninf ninf))
  · exact .inl (near_ninf (hF.add ninf (fin s)))
  · exact .inl (near_ninf (hF.add (fin r) ninf))
  · rcases near_le (hF.add (fin r) (fin s)) hF.zero_mem (by linarith) with e | ⟨q, _, e, hq⟩
    · exact .inl e
    · exact .inr ⟨q, e, hq⟩

/-! ## Loops over the layers -/

/-- The outcome of a loop with early return: `P` of the final state or `R` of the returned value. -/
def Post {σ ρ : Type} (P : σ → Prop) (R : ρ → Prop) : Except ρ σ → Prop
  | .ok s => P s
  | .error r => R r

theorem mergeLoop_inv {σ ρ : Type} {body : σ → ℕ → XR → XR → Except ρ σ} {P : σ → Prop}
    {R : ρ → Prop} {X : XR → Prop}
    (hb : ∀ s k x y, P s → X x → X y → Post P R (body s k x y)) :
    ∀ (xs ys : List (ℕ × XR)) (s : σ), P s → (∀ p ∈ xs, X p.2) → (∀ p ∈ ys, X p.2) →
      Post P R (mergeLoop body xs ys s) := by
  intro xs ys s
  induction xs, ys, s using mergeLoop.induct (body := body) with
  | case1 ys s => intro h _ _; simpa [mergeLoop, Post] using h
  | case2 x xs s => intro h _ _; simpa [mergeLoop, Post] using h
  | case3 xv xs a yv ys s r hr =>
    intro h hx hy
    have := hb s a xv yv h (hx (a, xv) (by simp)) (hy (a, yv) (by simp))
    rw [hr] at this
    simpa [mergeLoop, hr] using this
  | case4 xv xs a yv ys s s' hr ih =>
    intro h hx hy
    have := hb s a xv yv h (hx (a, xv) (by simp)) (hy (a, yv) (by simp))
    rw [hr] at this
    simpa [mergeLoop, hr] using
      ih this (fun p hp => hx p (by simp [hp])) (fun p hp => hy p (by simp [hp]))
  | case5 a xv xs b yv ys s hne hlt ih =>
    intro h hx hy
    rw [mergeLoop, if_neg hne, if_pos hlt]
    exact ih h (fun p hp => hx p (by simp [hp])) hy
  | case6 a xv xs b yv ys s hne hlt ih =>
    intro h hx hy
    rw [mergeLoop, if_neg hne, if_neg hlt]
    exact ih h hx (fun p hp => hy p (by simp [hp]))

theorem zipLoop_inv {σ ρ : Type} {body : σ → ℕ → XR → XR → Except ρ σ} {P : σ → Prop}
    {R : ρ → Prop} {X : XR → Prop}
    (hb : ∀ s k x y, P s → X x → X y → Post P R (body s k x y)) :
    ∀ (xs ys : List XR) (k : ℕ) (s : σ), P s → (∀ p ∈ xs, X p) → (∀ p ∈ ys, X p) →
      Post P R (zipLoop body k xs ys s) := by
  intro xs
  induction xs with
  | nil => intro ys k s h _ _; simpa [zipLoop, Post] using h
  | cons x xs ih =>
    intro ys k s h hx hy
    cases ys with
    | nil => simpa [zipLoop, Post] using h
    | cons y ys =>
      have := hb s k x y h (hx x (by simp)) (hy y (by simp))
      rw [zipLoop]
      cases hr : body s k x y with
      | error r => rw [hr] at this; exact this
      | ok s' =>
        rw [hr] at this
        exact ih ys (k + 1) s' this (fun p hp => hx p (by simp [hp]))
          (fun p hp => hy p (by simp [hp]))

/-- A finite number that is not negative. -/
def Fin0 (v : XR) : Prop := ∃ r : ℝ, v = fin r ∧ 0 ≤ r

theorem fitBody_inv (hF : Faithful F A) {R : XR → Prop} {ret : XR} (hret : R ret) {d : ℕ → XR}
    (hd : ∀ k, Fin0 (d k)) (s : XR) (k : ℕ) (x y : XR) (hs : Unit F s) (hx : Fin0 x)
    (hy : Fin0 y) : Post (Unit F) R (fitBody A ret d s k x y) := by
  obtain ⟨a, rfl, ha⟩ := hx
  obtain ⟨b, rfl, hb⟩ := hy
  obtain ⟨c, hc, hc0⟩ := hd k
  rw [fitBody, hc]
  by_cases h : c = 0 ∨ a = 0 ∨ b = 0
  · rw [if_neg (by rcases h with h | h | h <;> simp [h, isZero])]
    exact hs
  · push Not at h
    rw [if_pos (by simp [isZero, h])]
    have ht := prod3_nn hF (hc0.lt_of_ne' h.1) (ha.lt_of_ne' h.2.1) (hb.lt_of_ne' h.2.2)
    rcases ht with e | ⟨r, hr, e, h0⟩
    · rw [e]; exact hret
    · rw [e]
      obtain ⟨q, _, rfl, hq0, hq1⟩ := hs
      refine div_unit hF hq0 ?_
      rcases one_add hF hr h0 with e' | ⟨s, hs, e', h1, _⟩
      · exact .inl e'
      · exact .inr ⟨s, hs, e', h1, hq1.trans h1⟩

theorem invBody_inv (hF : Faithful F A) {R : XR → Prop} {ret : XR} (hret : R ret) {d : ℕ → XR}
    (hd : ∀ k, Fin0 (d k)) (s : XR) (k : ℕ) (x y : XR) (hs : NN F s) (hx : Fin0 x)
    (hy : Fin0 y) : Post (NN F) R (invBody A ret d s k x y) := by
  obtain ⟨a, rfl, ha⟩ := hx
  obtain ⟨b, rfl, hb⟩ := hy
  obtain ⟨c, hc, hc0⟩ := hd k
  rw [invBody, hc]
  by_cases h : c = 0 ∨ a = 0 ∨ b = 0
  · rw [if_neg (by rcases h with h | h | h <;> simp [h, isZero])]
    exact hs
  · push Not at h
    rw [if_pos (by simp [isZero, h])]
    have ht := prod3_nn hF (hc0.lt_of_ne' h.1) (ha.lt_of_ne' h.2.1) (hb.lt_of_ne' h.2.2)
    by_cases hi : (prod3 A (fin c) (fin a) (fin b)).isInf
    · simp only [hi, if_true]; exact hret
    · simp only [hi]; exact add_nn hF hs ht

theorem finish_inv {σ ρ : Type} {P : σ → Prop} {R : ρ → Prop} {r : Except ρ σ} {k : σ → ρ}
    (h : Post P R r) (hk : ∀ s, P s → R (k s)) :
    R (finish r k) := by
  cases r with
  | error v => exact h
  | ok s => exact hk s h

theorem sub_one_unit (hF : Faithful F A) {s : XR} (hs : Unit F s) : Unit F (A.sub 1 s) := by
  obtain ⟨r, _, rfl, h0, h1⟩ := hs
  have := hF.sub 1 (fin r)
  rw [show (1 - fin r : XR) = fin (1 + -r) from rfl] at this
  exact near_between this hF.zero_mem hF.one_mem (by linarith) (by linarith)

theorem fitLogpEnd_np (hF : Faithful F A) {s : XR} (hs : Unit F s) : NP (fitLogpEnd A s) := by
  rw [fitLogpEnd]
  split
  · exact .inl rfl
  · obtain ⟨r, hr, rfl, h0, h1⟩ := hs
    exact log1p_np hF ⟨-r, hF.neg_mem r hr, rfl, by linarith, by linarith⟩

theorem invLogpEnd_np (hF : Faithful F A) {s : XR} (hs : NN F s) : NP (invLogpEnd A s) := by
  rw [invLogpEnd]
  split
  · exact .inl rfl
  · exact log_np hF (expm1_neg hF hs)

end Round

end Verif
