import Verif.Round.Lemmas

/-!
# Lemmas on the loops over the pairs of vertices, with rounding
-/

namespace Verif

namespace Round

open XR

variable {F : Set ℝ} {A : Arith}

/-- A representable number between 0 and `k`. -/
def Bd (F : Set ℝ) (k : ℕ) (v : XR) : Prop := ∃ r ∈ F, v = fin r ∧ 0 ≤ r ∧ r ≤ k

theorem Bd.zero (hF : Faithful F A) : Bd F 0 0 := ⟨0, hF.zero_mem, rfl, le_rfl, by simp⟩

theorem Bd.add (hF : Faithful F A) {k : ℕ} (hk : ((k + 1 : ℕ) : ℝ) ∈ F) {e p : XR} (he : Bd F k e)
    (hp : Unit F p) : Bd F (k + 1) (A.add e p) := by
  obtain ⟨r, _, rfl, h0, h1⟩ := he
  obtain ⟨s, _, rfl, g0, g1⟩ := hp
  refine near_between (hF.add (fin r) (fin s)) hF.zero_mem hk (by positivity) ?_
  push_cast
  linarith

theorem Bd.mono {k m : ℕ} (h : k ≤ m) {v : XR} (hv : Bd F k v) : Bd F m v := by
  obtain ⟨r, hr, e, h0, h1⟩ := hv
  exact ⟨r, hr, e, h0, h1.trans (by exact_mod_cast h)⟩

theorem fold_bd (hF : Faithful F A) {ι : Type} {N : ℕ} (hN : ∀ k ≤ N, (k : ℝ) ∈ F) (l : List ι)
    (adm : ι → Bool) (p : ι → XR) (hp : ∀ x, Unit F (p x)) :
    ∀ (k : ℕ) (e : XR), Bd F k e → k + l.countP adm ≤ N →
      Bd F (k + l.countP adm) (l.foldl (fun e x => if adm x then A.add e (p x) else e) e) := by
  induction l with
  | nil => intro k e h _; simpa using h
  | cons x l ih =>
    intro k e h hk
    rw [List.foldl_cons]
    by_cases hx : adm x
    · rw [List.countP_cons_of_pos hx] at hk ⊢
      rw [if_pos hx]
      have := ih (k + 1) _ (h.add hF (hN _ (by omega)) (hp x)) (by omega)
      rwa [show k + 1 + l.countP adm = k + (l.countP adm + 1) by omega] at this
    · rw [List.countP_cons_of_neg hx] at hk ⊢
      rw [if_neg hx]
      exact ih k e h hk

theorem count_admissible {n i : ℕ} (hi : i < n) (sl : Bool) :
    (List.range n).countP (fun j => admissible i j sl) = if sl then n else n - 1 := by
  cases sl with
  | true => simp [admissible]
  | false =>
    have h := List.length_eq_countP_add_countP (fun j => j == i) (l := List.range n)
    have h1 : (List.range n).countP (fun j => j == i) = 1 :=
      List.count_eq_one_of_mem List.nodup_range (List.mem_range.2 hi)
    have h2 : (List.range n).countP (fun j => admissible i j false) =
        (List.range n).countP (fun j => decide ¬(j == i) = true) := by
      congr 1; funext j
      rw [Bool.eq_iff_iff]
      simp [admissible, ne_comm]
    rw [h2]
    rw [h1, List.length_range] at h
    simp only [Bool.false_eq_true, if_false]
    omega

theorem exp_edges_bd {α β δ ζ : Type} (hF : Faithful F A) (n : ℕ) (sl : Bool)
    (hN : ∀ k ≤ n * (if sl then n else n - 1), (k : ℝ) ∈ F) (p : δ → α → β → ζ → XR) (d : δ)
    (x : ℕ → α) (y : ℕ → β) (z : ℕ → ℕ → ζ) (hp : ∀ i j, Unit F (p d (x i) (y j) (z i j))) :
    Bd F (n * (if sl then n else n - 1)) (exp_edges A p d n x y z sl) := by
  set c := if sl then n else n - 1 with hc
  have key : ∀ m ≤ n, Bd F (m * c) ((List.range m).foldl (fun exp_e i =>
      (List.range n).foldl (fun exp_e j =>
        if admissible i j sl then A.add exp_e (p d (x i) (y j) (z i j)) else exp_e) exp_e) 0) := by
    intro m
    induction m with
    | zero => intro _; simpa using Bd.zero hF
    | succ m ih =>
      intro hm
      rw [List.range_succ, List.foldl_append]
      have hcnt := count_admissible (n := n) (i := m) (by omega) sl
      have hle : (m + 1) * c ≤ n * c := Nat.mul_le_mul_right c hm
      have := fold_bd hF hN (List.range n) (fun j => admissible m j sl)
        (fun j => p d (x m) (y j) (z m j)) (fun j => hp m j) (m * c) _ (ih (by omega))
        (by rw [hcnt, ← hc]; linarith [Nat.succ_mul m c, Nat.succ_eq_add_one m])
      rw [hcnt, ← hc] at this
      rw [Nat.succ_mul]
      exact this
  exact key n le_rfl

theorem foldl_range_inv {σ : Type} (f : σ → ℕ → σ) (P : ℕ → σ → Prop) (m : ℕ) (s : σ)
    (h0 : P 0 s) (h : ∀ j < m, ∀ s, P j s → P (j + 1) (f s j)) :
    P m ((List.range m).foldl f s) := by
  induction m with
  | zero => exact h0
  | succ m ih =>
    rw [List.range_succ, List.foldl_append]
    exact h m (by omega) _ (ih fun j hj => h j (by omega))

/-- Number of contributions to entry `k` when the first `j` inner steps of vertex `m` are done. -/
def contributions (m j s k : ℕ) : ℕ :=
  if k < j then m + s else if k = m then j else if k < m then m - 1 + s else 0

theorem addAt_apply (a : ℕ → XR) (i : ℕ) (v : XR) (k : ℕ) :
    addAt A a i v k = if k = i then A.add (a k) v else a k := by
  rw [addAt, Function.update_apply]
  split_ifs with h
  · rw [h]
  · rfl

/-- One inner step with two different vertices. -/
theorem step_pair {P : ℕ → XR → Prop} {Q : XR → Prop} {n m j s : ℕ}
    (hs : s ≤ 1) (hadd : ∀ k < n, ∀ e p, P k e → Q p → P (k + 1) (A.add e p)) (hm : m < n)
    (hj : j < m) {a : ℕ → XR} (ha : ∀ k, P (contributions m j s k) (a k)) {v w : XR} (hv : Q v)
    (hw : Q w) (k : ℕ) : P (contributions m (j + 1) s k) (addAt A (addAt A a m v) j w k) := by
  have h := ha k
  rw [addAt_apply, addAt_apply]
  unfold contributions at h ⊢
  by_cases h1 : k = j
  · subst h1
    rw [if_pos (show k < k + 1 by omega), if_pos (show k = k from rfl),
      if_neg (show ¬ k = m by omega)]
    rw [if_neg (show ¬ k < k by omega), if_neg (show ¬ k = m by omega), if_pos hj] at h
    have := hadd _ (by omega) _ _ h hw
    rwa [show m - 1 + s + 1 = m + s by omega] at this
  · rw [if_neg h1]
    by_cases h2 : k = m
    · subst h2
      rw [if_neg (show ¬ k < j + 1 by omega), if_pos (show k = k from rfl),
        if_pos (show k = k from rfl)]
      rw [if_neg (show ¬ k < j by omega), if_pos (show k = k from rfl)] at h
      exact hadd _ (by omega) _ _ h hv
    · rw [if_neg h2, if_neg h2]
      rw [if_neg h2] at h
      rcases lt_or_ge k j with h3 | h3
      · rw [if_pos h3] at h; rwa [if_pos (by omega)]
      · rw [if_neg (by omega)] at h; rwa [if_neg (by omega)]

theorem addAt_comm {a : ℕ → XR} {i j : ℕ} (h : i ≠ j) (v w : XR) :
    addAt A (addAt A a i v) j w = addAt A (addAt A a j w) i v := by
  funext k
  simp only [addAt_apply]
  by_cases h1 : k = i <;> by_cases h2 : k = j <;> simp_all

/-- The inner step of a vertex with itself, with self-loops. -/
theorem step_self {P : ℕ → XR → Prop} {Q : XR → Prop} {n m : ℕ}
    (hadd : ∀ k < n, ∀ e p, P k e → Q p → P (k + 1) (A.add e p)) (hm : m < n) {a : ℕ → XR}
    (ha : ∀ k, P (contributions m m 1 k) (a k)) {v : XR} (hv : Q v) (k : ℕ) :
    P (contributions m (m + 1) 1 k) (addAt A a m v k) := by
  have h := ha k
  rw [addAt_apply]
  unfold contributions at h ⊢
  by_cases h2 : k = m
  · subst h2
    rw [if_pos (show k < k + 1 by omega), if_pos (show k = k from rfl)]
    rw [if_neg (show ¬ k < k by omega), if_pos (show k = k from rfl)] at h
    exact hadd _ (by omega) _ _ h hv
  · rcases lt_or_ge k m with h3 | h3
    · rw [if_pos h3] at h
      rwa [if_pos (show k < m + 1 by omega), if_neg h2]
    · rw [if_neg (show ¬ k < m by omega), if_neg h2, if_neg (show ¬ k < m by omega)] at h
      rwa [if_neg (show ¬ k < m + 1 by omega), if_neg h2, if_neg (show ¬ k < m by omega),
        if_neg h2]

theorem contributions_skip (m k : ℕ) : contributions m (m + 1) 0 k = contributions m m 0 k := by
  unfold contributions
  split_ifs <;> omega

/-- Between two vertices of the outer loop. -/
theorem contributions_next (m s k : ℕ) :
    contributions (m + 1) 0 s k = contributions m (m + 1) s k := by
  unfold contributions
  split_ifs <;> omega

/-- Invariant of the degree loop: every entry has received as many contributions as there are
other vertices, plus one with self-loops. -/
theorem exp_degrees_inv {α β δ ζ : Type} (n : ℕ) (sl : Bool) (p : δ → α → β → ζ → XR) (d : δ)
    (x : ℕ → α) (y : ℕ → β) (z : ℕ → ℕ → ζ) (P P' : ℕ → XR → Prop) (Q Q' : XR → Prop)
    (h0 : P 0 0) (h0' : P' 0 0)
    (hadd : ∀ k < n, ∀ e v, P k e → Q v → P (k + 1) (A.add e v))
    (hadd' : ∀ k < n, ∀ e v, P' k e → Q' v → P' (k + 1) (A.add e v))
    (hQ : ∀ i j, Q (p d (x i) (y j) (z i j))) (hQQ : ∀ v, Q v → Q' v)
    (hQ' : ∀ v w, Q v → Q w → Q' (A.sub (A.add v w) (A.mul v w))) (k : ℕ) (hk : k < n) :
    P (n - 1 + sl.toNat) ((exp_degrees A p d n x y z sl).exp_d_out k) ∧
      P (n - 1 + sl.toNat) ((exp_degrees A p d n x y z sl).exp_d_in k) ∧
      P' (n - 1 + sl.toNat) ((exp_degrees A p d n x y z sl).exp_d k) := by
  let I : ℕ → ℕ → DiGraphEnsemble.Degrees → Prop := fun m j s => ∀ k,
    P (contributions m j sl.toNat k) (s.exp_d_out k) ∧
      P (contributions m j sl.toNat k) (s.exp_d_in k) ∧
      P' (contributions m j sl.toNat k) (s.exp_d k)
  have hsl : sl.toNat ≤ 1 := by cases sl <;> decide
  have step : ∀ m < n, ∀ j < m + 1, ∀ s, I m j s →
      I m (j + 1) (exp_degrees_step A p d x y z sl m s j) := by
    intro m hm j hj s hI
    rw [exp_degrees_step]
    by_cases e : m = j
    · subst e
      rw [if_neg (by simp)]
      cases sl with
      | false =>
        intro k
        simp only [Bool.toNat_false, contributions_skip]
        exact hI k
      | true =>
        intro k
        refine ⟨step_self hadd hm (fun k => (hI k).1) (hQ m m) k,
          step_self hadd hm (fun k => (hI k).2.1) (hQ m m) k,
          step_self hadd' hm (fun k => (hI k).2.2) (hQQ _ (hQ m m)) k⟩
    · rw [if_pos e]
      have hj' : j < m := by omega
      intro k
      refine ⟨step_pair hsl hadd hm hj' (fun k => (hI k).1) (hQ m j) (hQ j m) k, ?_,
        step_pair hsl hadd' hm hj' (fun k => (hI k).2.2) (hQ' _ _ (hQ m j) (hQ j m))
          (hQ' _ _ (hQ m j) (hQ j m)) k⟩
      have := step_pair hsl hadd hm hj' (fun k => (hI k).2.1) (hQ j m) (hQ m j) k
      rw [addAt_comm e] at this
      exact this
  have outer : I n 0 (exp_degrees A p d n x y z sl) := by
    refine foldl_range_inv _ (fun m => I m 0) n _ ?_ ?_
    · intro k
      have : contributions 0 0 sl.toNat k = 0 := by unfold contributions; split_ifs <;> omega
      rw [this]
      exact ⟨h0, h0, h0'⟩
    · intro m hm s hs
      have := foldl_range_inv (exp_degrees_step A p d x y z sl m) (fun j => I m j) (m + 1) s hs
        (step m hm)
      intro k
      rw [contributions_next]
      exact this k
  have hc : contributions n 0 sl.toNat k = n - 1 + sl.toNat := by
    unfold contributions
    rw [if_neg (by omega), if_neg (by omega), if_pos hk]
  have := outer k
  rwa [hc] at this

/-! ## Likelihood -/

theorem foldlM_inv {σ ρ ι : Type} (f : σ → ι → Except ρ σ) (P : σ → Prop) (R : ρ → Prop)
    (l : List ι) (h : ∀ s, ∀ x ∈ l, P s → Post P R (f s x)) :
    ∀ s, P s → Post P R (l.foldlM f s) := by
  induction l with
  | nil => intro s hs; exact hs
  | cons x l ih =>
    intro s hs
    have hx := h s x (by simp) hs
    rw [List.foldlM_cons]
    cases e : f s x with
    | error r => rw [e] at hx; exact hx
    | ok s' =>
      rw [e] at hx
      exact ih (fun s y hy => h s y (by simp [hy])) s' hx

theorem likelihood_np {α β δ ζ : Type} (hF : Faithful F A) (logp log1mp : δ → α → β → ζ → XR)
    (d : δ) (n : ℕ) (x : ℕ → α) (y : ℕ → β) (z : ℕ → ℕ → ζ) (link : ℕ → ℕ → Bool) (sl : Bool)
    (h1 : ∀ i j, NP (logp d (x i) (y j) (z i j))) (h2 : ∀ i j, NP (log1mp d (x i) (y j) (z i j))) :
    NP (likelihood A logp log1mp d n x y z link sl) := by
  have key := foldlM_inv (fun like i =>
    (List.range n).foldlM (fun like j =>
      if admissible i j sl then
        let tmp :=
          if link i j then logp d (x i) (y j) (z i j) else log1mp d (x i) (y j) (z i j)
        if tmp.isInf then Except.error tmp else .ok (A.add like tmp)
      else .ok like) like) NP NP (List.range n) (by
    intro s i _ hs
    refine foldlM_inv _ NP NP (List.range n) ?_ s hs
    intro s j _ hs
    by_cases ha : admissible i j sl
    · rw [if_pos ha]
      have ht : NP (if link i j then logp d (x i) (y j) (z i j)
          else log1mp d (x i) (y j) (z i j)) := by
        by_cases hl : link i j
        · rw [if_pos hl]; exact h1 i j
        · rw [if_neg hl]; exact h2 i j
      dsimp only
      by_cases hi : (if link i j then logp d (x i) (y j) (z i j)
          else log1mp d (x i) (y j) (z i j)).isInf
      · rw [if_pos hi]; exact ht
      · rw [if_neg hi]; exact add_np hF hs ht
    · rw [if_neg ha]; exact hs) 0 NP.zero
  rw [likelihood, likelihoodLoop]
  split <;> rename_i e <;> rw [e] at key <;> exact key

end Round

end Verif
