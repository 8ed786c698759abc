import Verif.Round.AllLemmas

/-!
# Sums of probabilities in double precision: lemmas
-/

namespace Verif

namespace Round

open XR

variable {α β δ ζ : Type}

/-- The edge loop run in two arithmetics. -/
theorem exp_edges_rel {A B : Arith} (n : ℕ) (sl : Bool) (p q : δ → α → β → ζ → XR) (d : δ)
    (x : ℕ → α) (y : ℕ → β) (z : ℕ → ℕ → ζ) (P : ℕ → XR → XR → Prop) (Q : XR → XR → Prop)
    (h0 : P 0 0 0)
    (hadd : ∀ k < n * (if sl then n else n - 1), ∀ e e' v v', P k e e' → Q v v' →
      P (k + 1) (A.add e v) (B.add e' v'))
    (hQ : ∀ i < n, ∀ j < n, Q (p d (x i) (y j) (z i j)) (q d (x i) (y j) (z i j))) :
    P (n * (if sl then n else n - 1)) (exp_edges A p d n x y z sl) (exp_edges B q d n x y z sl) := by
  set c := if sl then n else n - 1 with hc
  have fold : ∀ (l : List ℕ) (adm : ℕ → Bool) (f g : ℕ → XR) (_ : ∀ j ∈ l, Q (f j) (g j)) (k : ℕ)
      (e e' : XR), P k e e' → k + l.countP adm ≤ n * c →
      P (k + l.countP adm) (l.foldl (fun e j => if adm j then A.add e (f j) else e) e)
        (l.foldl (fun e j => if adm j then B.add e (g j) else e) e') := by
    intro l adm f g
    induction l with
    | nil => intro _ k e e' h _; simpa using h
    | cons x l ih =>
      intro hq k e e' h hk
      rw [List.foldl_cons, List.foldl_cons]
      by_cases hx : adm x
      · rw [List.countP_cons_of_pos hx] at hk ⊢
        rw [if_pos hx, if_pos hx]
        have := ih (fun j hj => hq j (by simp [hj])) (k + 1) _ _
          (hadd k (by omega) _ _ _ _ h (hq x (by simp))) (by omega)
        rwa [show k + 1 + l.countP adm = k + (l.countP adm + 1) by omega] at this
      · rw [List.countP_cons_of_neg hx] at hk ⊢
        rw [if_neg hx, if_neg hx]
        exact ih (fun j hj => hq j (by simp [hj])) k e e' h hk
  have key : ∀ m ≤ n, P (m * c)
      ((List.range m).foldl (fun exp_e i => (List.range n).foldl (fun exp_e j =>
        if admissible i j sl then A.add exp_e (p d (x i) (y j) (z i j)) else exp_e) exp_e) 0)
      ((List.range m).foldl (fun exp_e i => (List.range n).foldl (fun exp_e j =>
        if admissible i j sl then B.add exp_e (q d (x i) (y j) (z i j)) else exp_e) exp_e) 0) := by
    intro m
    induction m with
    | zero => intro _; simpa using h0
    | succ m ih =>
      intro hm
      rw [List.range_succ, List.foldl_append, List.foldl_append]
      have hcnt := count_admissible (n := n) (i := m) (by omega) sl
      have hle : (m + 1) * c ≤ n * c := Nat.mul_le_mul_right c hm
      have := fold (List.range n) (fun j => admissible m j sl) (fun j => p d (x m) (y j) (z m j))
        (fun j => q d (x m) (y j) (z m j)) (fun j hj => hQ m (by omega) j (List.mem_range.1 hj))
        (m * c) _ _ (ih (by omega)) (by rw [hcnt, ← hc]; rw [Nat.succ_mul] at hle; omega)
      rw [hcnt, ← hc] at this
      rw [Nat.succ_mul]
      exact this
  exact key n le_rfl

/-- `c` is a number and differs from the number `e` by at most `bound e`. -/
def Close (bound : ℝ → ℝ) (c e : XR) : Prop :=
  ∃ v V : ℝ, c = fin v ∧ e = fin V ∧ 0 ≤ V ∧ |v - V| ≤ bound V

theorem Term.mono {a b : ℝ} (hab : a ≤ b) {c e : XR} (h : Term a c e) : Term b c e := by
  obtain ⟨s, hs, t, e1, e2, s0, s1, t0, t1, hw⟩ := h
  exact ⟨s, hs, t, e1, e2, s0, s1, t0, t1, (mul_le_mul_of_nonneg_left (by linarith) t0).trans hw.1,
    hw.2.trans (mul_le_mul_of_nonneg_left (by linarith) t0)⟩

theorem Term.close {c : ℝ} {v e : XR} (h : Term (2 * c * ulp2) v e) :
    Close (fun V => c * (2 : ℝ) ^ (-52 : ℤ) * V) v e := by
  obtain ⟨s, hs, t, e1, e2, s0, s1, t0, t1, hw⟩ := h
  have e52 : (2 : ℝ) ^ (-52 : ℤ) = 2 * ulp2 := by unfold ulp2; norm_num
  refine ⟨s, t, e1, e2, t0, ?_⟩
  rw [e52, abs_le]
  constructor
  · linarith [hw.1]
  · linarith [hw.2]

theorem Acc.close {c : ℝ} {k : ℕ} (c0 : 0 ≤ c) (hc : (c + k) * ulp2 ≤ 1 / 2) {v e : XR}
    (h : Acc (c * ulp2) k v e) {b : ℝ} (hb : c + k ≤ b) :
    Close (fun V => b * (2 : ℝ) ^ (-52 : ℤ) * V) v e := by
  obtain ⟨s, hs, t, e1, e2, s0, t0, sk, g1, g2⟩ := h
  have e52 : (2 : ℝ) ^ (-52 : ℤ) = 2 * ulp2 := by unfold ulp2; norm_num
  refine ⟨s, t, e1, e2, t0, (abs_of_powers c0 hc t0 g1 g2).trans ?_⟩
  rw [e52]
  refine mul_le_mul_of_nonneg_right ?_ t0
  have := mul_le_mul_of_nonneg_right hb ulp2_pos.le
  linarith

private theorem count_le {n : ℕ} (sl : Bool) (hn : n ≤ 2 ^ 25) :
    n * (if sl then n else n - 1) ≤ 2 ^ 50 := by
  have : (if sl then n else n - 1) ≤ 2 ^ 25 := by split <;> omega
  calc _ ≤ 2 ^ 25 * 2 ^ 25 := Nat.mul_le_mul hn this
    _ = 2 ^ 50 := by norm_num

private theorem ulp2_le : ulp2 ≤ 1 / 2 ^ 53 := by unfold ulp2; norm_num

private theorem count_small {c : ℝ} {k : ℕ} (hc : c ≤ 2 ^ 40) (hk : k ≤ 2 ^ 50) :
    (c + k) * ulp2 ≤ 1 / 2 := by
  have h1 : (k : ℝ) ≤ 2 ^ 50 := by exact_mod_cast hk
  calc (c + k) * ulp2 ≤ (2 ^ 40 + 2 ^ 50) * ulp2 :=
        mul_le_mul_of_nonneg_right (by linarith) ulp2_pos.le
    _ ≤ (2 ^ 40 + 2 ^ 50) * (1 / 2 ^ 53) := mul_le_mul_of_nonneg_left ulp2_le (by norm_num)
    _ ≤ _ := by norm_num

private theorem c_small {c : ℝ} (hc : c ≤ 2 ^ 40) : c * ulp2 ≤ 1 / 100 := by
  calc c * ulp2 ≤ 2 ^ 40 * ulp2 := mul_le_mul_of_nonneg_right hc ulp2_pos.le
    _ ≤ 2 ^ 40 * (1 / 2 ^ 53) := mul_le_mul_of_nonneg_left ulp2_le (by norm_num)
    _ ≤ _ := by norm_num

/-- Expected number of edges, from probabilities with a relative error. -/
theorem edges_rel {n : ℕ} (hn : n ≤ 2 ^ 25) (sl : Bool) {c : ℝ} (c0 : 0 ≤ c) (hc : c ≤ 2 ^ 40)
    {p q : δ → α → β → ζ → XR} {d : δ} {x : ℕ → α} {y : ℕ → β} {z : ℕ → ℕ → ζ}
    (h : ∀ i < n, ∀ j < n, Term (c * ulp2) (p d (x i) (y j) (z i j)) (q d (x i) (y j) (z i j))) :
    Close (fun V => ((n * (if sl then n else n - 1) : ℕ) + c) * (2 : ℝ) ^ (-52 : ℤ) * V)
      (exp_edges binary64 p d n x y z sl) (DiGraphEnsemble.exp_edges q d n x y z sl) := by
  have hN := count_le sl hn
  have hcs := c_small hc
  have := exp_edges_rel (A := binary64) (B := Arith.exact) n sl p q d x y z (Acc (c * ulp2))
    (Term (c * ulp2)) (acc_zero _) (fun k hk e e' v v' he hv => acc_add
      (mul_nonneg c0 ulp2_pos.le) (by linarith) (by omega) he hv) h
  exact this.close c0 (count_small hc hN) (by linarith)

/-- Expected degrees, from probabilities with a relative error. -/
theorem degrees_rel {n : ℕ} (hn : n ≤ 2 ^ 25) (sl : Bool) {c : ℝ} (c0 : 0 ≤ c) (hc : c ≤ 2 ^ 39)
    {p q : δ → α → β → ζ → XR} {d : δ} {x : ℕ → α} {y : ℕ → β} {z : ℕ → ℕ → ζ}
    (h : ∀ i < n, ∀ j < n, Term (c * ulp2) (p d (x i) (y j) (z i j)) (q d (x i) (y j) (z i j)))
    (k : ℕ) (hk : k < n) :
    let s := exp_degrees binary64 p d n x y z sl
    let t := DiGraphEnsemble.exp_degrees q d n x y z sl
    Close (fun V => (n + c) * (2 : ℝ) ^ (-52 : ℤ) * V) (s.exp_d_out k) (t.exp_d_out k) ∧
      Close (fun V => (n + c) * (2 : ℝ) ^ (-52 : ℤ) * V) (s.exp_d_in k) (t.exp_d_in k) ∧
      Close (fun V => (n + c + 6) * (2 : ℝ) ^ (-52 : ℤ) * V) (s.exp_d k) (t.exp_d k) := by
  intro s t
  have hu := ulp2_pos
  have hcs := c_small (hc.trans (by norm_num))
  have hcs' := c_small (c := c + 5.1) (by linarith)
  have hsl : n - 1 + sl.toNat ≤ n := by cases sl <;> simp; omega
  have hsl' : ((n - 1 + sl.toNat : ℕ) : ℝ) ≤ n := by exact_mod_cast hsl
  have key := exp_degrees_rel (A := binary64) (B := Arith.exact) n sl p q d x y z (Acc (c * ulp2))
    (Acc ((c + 5.1) * ulp2)) (Term (c * ulp2)) (Term ((c + 5.1) * ulp2)) (acc_zero _) (acc_zero _)
    (fun k hk e e' v v' he hv => acc_add (mul_nonneg c0 hu.le) (by linarith) (by omega) he hv)
    (fun k hk e e' v v' he hv => acc_add (by positivity) (by linarith) (by omega) he hv)
    h (fun v v' hv => hv.mono (by linarith))
    (by
      rintro v w v' w' ⟨s, hs, t, rfl, rfl, s0, s1, t0, t1, hw⟩
        ⟨s', hs', t', rfl, rfl, s0', s1', t0', t1', hw'⟩
      obtain ⟨r, hr, er, r0, r1, hrw⟩ := union_acc (e := c * ulp2) (mul_nonneg c0 hu.le) hcs
        hs hs' s0 s1 s0' s1' t0 t1 t0' t1' hw hw'
      refine ⟨r, hr, t + t' - t * t', er, rfl, r0, r1, ?_, ?_, ?_⟩
      · nlinarith
      · nlinarith
      · rwa [add_mul])
    k hk
  exact ⟨key.1.close c0 (count_small (by linarith) (by omega)) (by linarith),
    key.2.1.close c0 (count_small (by linarith) (by omega)) (by linarith),
    key.2.2.close (by linarith) (count_small (by linarith) (by omega)) (by linarith)⟩

/-! ## Terms with an absolute error -/

/-- A probability with an absolute error. -/
def AbsTerm (a : ℝ) (c e : XR) : Prop :=
  ∃ s ∈ doubles, ∃ t : ℝ, c = fin s ∧ e = fin t ∧ 0 ≤ s ∧ s ≤ 1 ∧ 0 ≤ t ∧ t ≤ 1 ∧ |s - t| ≤ a

/-- Partial sums with `k` such terms. -/
def AbsAcc (a : ℝ) (k : ℕ) (c e : XR) : Prop :=
  ∃ s ∈ doubles, ∃ t : ℝ, c = fin s ∧ e = fin t ∧ 0 ≤ s ∧ 0 ≤ t ∧ s ≤ k ∧
    |s - t| ≤ ((1 + ulp2) ^ k - 1) * t + a * k * (1 + ulp2) ^ k

theorem abs_zero' (a : ℝ) : AbsAcc a 0 0 0 :=
  ⟨0, Faithful.binary64.zero_mem, 0, rfl, rfl, le_rfl, le_rfl, by simp, by simp⟩

theorem abs_add {a : ℝ} (a0 : 0 ≤ a) {k : ℕ} (hk : k < 2 ^ 53)
    {e e' v v' : XR} (h : AbsAcc a k e e') (hv : AbsTerm a v v') :
    AbsAcc a (k + 1) (binary64.add e v) (Arith.exact.add e' v') := by
  obtain ⟨s, hs, t, rfl, rfl, s0, t0, sk, hst⟩ := h
  obtain ⟨p, hp, q, rfl, rfl, p0, p1, q0, _, hpq⟩ := hv
  have hu := ulp2_pos
  have hk' : (0 : ℝ) ≤ k := Nat.cast_nonneg k
  have hk2 : (k : ℝ) ≤ 9007199254740992 := by exact_mod_cast hk.le
  have hb : Bd doubles (k + 1) (binary64.add (fin s) (fin p)) :=
    Bd.add Faithful.binary64 (natCast_mem (by omega)) ⟨s, hs, rfl, s0, sk⟩ ⟨p, hp, rfl, p0, p1⟩
  obtain ⟨r, hr, er, g1, g2⟩ := add_within hs hp s0 p0 (by
    calc s + p ≤ (2 : ℝ) ^ (60 : ℤ) := by
          have : (2 : ℝ) ^ (60 : ℤ) = 1152921504606846976 := by norm_num
          rw [this]; linarith
      _ ≤ _ := zpow_le_zpow_right₀ (by norm_num) (by norm_num))
  have er' : binary64.add (fin s) (fin p) = fin r := er
  rw [er'] at hb ⊢
  obtain ⟨r', _, e2, r0, rk⟩ := hb
  obtain rfl : r = r' := XR.fin.inj e2
  refine ⟨r, hr, t + q, rfl, rfl, r0, by linarith, rk, ?_⟩
  set G := (1 + ulp2) ^ k with hG
  have G1 : 1 ≤ G := one_le_pow₀ (by linarith)
  have h1 : |r - (s + p)| ≤ ulp2 * (s + p) := by
    rw [abs_le]; constructor <;> linarith
  have h2 : |s + p - (t + q)| ≤ (G - 1) * t + a * k * G + a := by
    have : s + p - (t + q) = (s - t) + (p - q) := by ring
    rw [this]
    exact (abs_add_le _ _).trans (by linarith)
  have h3 : s + p ≤ (t + q) + |s + p - (t + q)| := by linarith [le_abs_self (s + p - (t + q))]
  have h4 : |r - (t + q)| ≤ (1 + ulp2) * |s + p - (t + q)| + ulp2 * (t + q) := by
    have : r - (t + q) = (r - (s + p)) + (s + p - (t + q)) := by ring
    rw [this]
    refine (abs_add_le _ _).trans ?_
    have := mul_le_mul_of_nonneg_left h3 hu.le
    linarith
  refine h4.trans ?_
  have h5 := mul_le_mul_of_nonneg_left h2 (show 0 ≤ 1 + ulp2 by linarith)
  have h6 : 0 ≤ (G - 1) * q * (1 + ulp2) := by
    have : 0 ≤ G - 1 := by linarith
    positivity
  have h7 : a * (1 + ulp2) ≤ a * (1 + ulp2) * G := le_mul_of_one_le_right (by positivity) G1
  rw [pow_succ, ← hG]
  push_cast
  nlinarith

theorem AbsTerm.close {c : ℝ} {v e : XR} (h : AbsTerm (c * ulp2) v e) :
    Close (fun _ => c * (2 : ℝ) ^ (-53 : ℤ)) v e := by
  obtain ⟨s, hs, t, e1, e2, s0, s1, t0, t1, hw⟩ := h
  exact ⟨s, t, e1, e2, t0, hw⟩

theorem AbsTerm.mono {a b : ℝ} (hab : a ≤ b) {c e : XR} (h : AbsTerm a c e) : AbsTerm b c e := by
  obtain ⟨s, hs, t, e1, e2, s0, s1, t0, t1, hw⟩ := h
  exact ⟨s, hs, t, e1, e2, s0, s1, t0, t1, hw.trans hab⟩

theorem AbsAcc.close {c : ℝ} {k m : ℕ} (c0 : 0 ≤ c) (hk : k ≤ 2 ^ 50) (hkm : k ≤ m) {v e : XR}
    (h : AbsAcc (c * ulp2) k v e) :
    Close (fun V => m * (2 : ℝ) ^ (-52 : ℤ) * (V + c)) v e := by
  obtain ⟨s, hs, t, e1, e2, s0, t0, sk, g⟩ := h
  have hu := ulp2_pos
  have e52 : (2 : ℝ) ^ (-52 : ℤ) = 2 * ulp2 := by unfold ulp2; norm_num
  have hk' : (0 : ℝ) ≤ k := Nat.cast_nonneg k
  have hkm' : (k : ℝ) ≤ m := by exact_mod_cast hkm
  have hks := count_small (c := 0) (k := k) (by norm_num) hk
  rw [zero_add] at hks
  have hG : (1 + ulp2) ^ k ≤ 1 + 2 * (k * ulp2) := by
    have e2 : (1 + ulp2) ^ k ≤ Real.exp (k * ulp2) := by
      rw [Real.exp_nat_mul]
      exact pow_le_pow_left₀ (by linarith) (by linarith [Real.add_one_le_exp ulp2]) k
    refine e2.trans ((Real.exp_bound_div_one_sub_of_interval (by positivity) (by linarith)).trans ?_)
    rw [div_le_iff₀ (by linarith)]
    have : 0 ≤ k * ulp2 := by positivity
    nlinarith
  refine ⟨s, t, e1, e2, t0, g.trans ?_⟩
  have h1 : ((1 + ulp2) ^ k - 1) * t ≤ 2 * (k * ulp2) * t :=
    mul_le_mul_of_nonneg_right (by linarith) t0
  have h2 : c * ulp2 * k * (1 + ulp2) ^ k ≤ c * ulp2 * k * 2 :=
    mul_le_mul_of_nonneg_left (by linarith) (by positivity)
  have h3 : k * ulp2 * (t + c) ≤ m * ulp2 * (t + c) :=
    mul_le_mul_of_nonneg_right (mul_le_mul_of_nonneg_right hkm' hu.le) (by linarith)
  rw [e52]
  linarith

/-- Expected number of edges, from probabilities with an absolute error. -/
theorem edges_abs {n : ℕ} (hn : n ≤ 2 ^ 25) (sl : Bool) {c : ℝ} (c0 : 0 ≤ c)
    {p q : δ → α → β → ζ → XR} {d : δ} {x : ℕ → α} {y : ℕ → β} {z : ℕ → ℕ → ζ}
    (h : ∀ i < n, ∀ j < n, AbsTerm (c * ulp2) (p d (x i) (y j) (z i j)) (q d (x i) (y j) (z i j))) :
    Close (fun V => (n * (if sl then n else n - 1) : ℕ) * (2 : ℝ) ^ (-52 : ℤ) * (V + c))
      (exp_edges binary64 p d n x y z sl) (DiGraphEnsemble.exp_edges q d n x y z sl) := by
  have hN := count_le sl hn
  have := exp_edges_rel (A := binary64) (B := Arith.exact) n sl p q d x y z (AbsAcc (c * ulp2))
    (AbsTerm (c * ulp2)) (abs_zero' _) (fun k hk e e' v v' he hv => abs_add
      (mul_nonneg c0 ulp2_pos.le) (by omega) he hv) h
  exact this.close c0 hN le_rfl

/-- Expected degrees, from probabilities with an absolute error. -/
theorem degrees_abs {n : ℕ} (hn : n ≤ 2 ^ 25) (sl : Bool) {c : ℝ} (c0 : 0 ≤ c)
    {p q : δ → α → β → ζ → XR} {d : δ} {x : ℕ → α} {y : ℕ → β} {z : ℕ → ℕ → ζ}
    (h : ∀ i < n, ∀ j < n, AbsTerm (c * ulp2) (p d (x i) (y j) (z i j)) (q d (x i) (y j) (z i j)))
    (k : ℕ) (hk : k < n) :
    let s := exp_degrees binary64 p d n x y z sl
    let t := DiGraphEnsemble.exp_degrees q d n x y z sl
    Close (fun V => n * (2 : ℝ) ^ (-52 : ℤ) * (V + c)) (s.exp_d_out k) (t.exp_d_out k) ∧
      Close (fun V => n * (2 : ℝ) ^ (-52 : ℤ) * (V + c)) (s.exp_d_in k) (t.exp_d_in k) ∧
      Close (fun V => n * (2 : ℝ) ^ (-52 : ℤ) * (V + (2 * c + 6))) (s.exp_d k) (t.exp_d k) := by
  intro s t
  have hu := ulp2_pos
  have hsl : n - 1 + sl.toNat ≤ n := by cases sl <;> simp; omega
  have key := exp_degrees_rel (A := binary64) (B := Arith.exact) n sl p q d x y z
    (AbsAcc (c * ulp2)) (AbsAcc ((2 * c + 6) * ulp2)) (AbsTerm (c * ulp2))
    (AbsTerm ((2 * c + 6) * ulp2)) (abs_zero' _) (abs_zero' _)
    (fun k hk e e' v v' he hv => abs_add (mul_nonneg c0 hu.le) (by omega) he hv)
    (fun k hk e e' v v' he hv => abs_add (by positivity) (by omega) he hv)
    h (fun v v' hv => hv.mono (by nlinarith))
    (by
      rintro v w v' w' ⟨s, hs, t, rfl, rfl, s0, s1, t0, t1, hw⟩
        ⟨s', hs', t', rfl, rfl, s0', s1', t0', t1', hw'⟩
      obtain ⟨r, hr, er, r0, r1, hr1, hr2⟩ := union_acc (e := 0) le_rfl (by norm_num)
        hs hs' s0 s1 s0' s1' s0 s1 s0' s1' (by simp [Within]) (by simp [Within])
      refine ⟨r, hr, t + t' - t * t', er, rfl, r0, r1, ?_, ?_, ?_⟩
      · nlinarith
      · nlinarith
      · have U1 : s + s' - s * s' ≤ 1 := by nlinarith
        have U0 : 0 ≤ s + s' - s * s' := by nlinarith
        have h1 : |r - (s + s' - s * s')| ≤ 5.1 * ulp2 := by
          rw [abs_le]; constructor <;> nlinarith
        have h2 : |s + s' - s * s' - (t + t' - t * t')| ≤ c * ulp2 + c * ulp2 := by
          have e : s + s' - s * s' - (t + t' - t * t') = (s - t) * (1 - s') + (s' - t') * (1 - t) := by
            ring
          rw [e]
          refine (abs_add_le _ _).trans (add_le_add ?_ ?_)
          · rw [abs_mul, abs_of_nonneg (show 0 ≤ 1 - s' by linarith)]
            exact (mul_le_of_le_one_right (abs_nonneg _) (by linarith)).trans hw
          · rw [abs_mul, abs_of_nonneg (show 0 ≤ 1 - t by linarith)]
            exact (mul_le_of_le_one_right (abs_nonneg _) (by linarith)).trans hw'
        have e : r - (t + t' - t * t') =
            (r - (s + s' - s * s')) + (s + s' - s * s' - (t + t' - t * t')) := by ring
        rw [e]
        refine (abs_add_le _ _).trans ?_
        linarith)
    k hk
  exact ⟨key.1.close c0 (by omega) hsl, key.2.1.close c0 (by omega) hsl,
    key.2.2.close (by linarith) (by omega) hsl⟩

end Round

end Verif
