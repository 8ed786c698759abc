import Mathlib.Data.Real.Basic
import Mathlib.Algebra.Order.BigOperators.Ring.Finset
import Mathlib.Tactic.Linarith
import Mathlib.Tactic.FieldSimp
import Mathlib.Tactic.Ring
import Mathlib.Tactic.LinearCombination
import Mathlib.Data.Finset.Basic
import Mathlib.Data.List.Nodup

/-!
# Sequential sampling of links given that at least one is present

Real-number facts about the renormalised acceptance thresholds of the conditional sampler.
-/

namespace Verif.Cond

variable {E : Type} [DecidableEq E]

/-- Probability that no link of the list is present. -/
def noneOf (p : E → ℝ) (L : List E) : ℝ := (L.map (fun e => 1 - p e)).prod

omit [DecidableEq E] in
@[simp] theorem noneOf_nil (p : E → ℝ) : noneOf p [] = 1 := by simp [noneOf]
omit [DecidableEq E] in
@[simp] theorem noneOf_cons (p : E → ℝ) (e : E) (L : List E) :
    noneOf p (e :: L) = (1 - p e) * noneOf p L := by simp [noneOf]

theorem noneOf_eq_prod (p : E → ℝ) {L : List E} (h : L.Nodup) :
    noneOf p L = ∏ e ∈ L.toFinset, (1 - p e) := by
  unfold noneOf
  rw [List.prod_toFinset _ h]

omit [DecidableEq E] in
theorem noneOf_mem {p : E → ℝ} (hp : ∀ e, 0 ≤ p e ∧ p e ≤ 1) (L : List E) :
    0 ≤ noneOf p L ∧ noneOf p L ≤ 1 := by
  induction L with
  | nil => simp
  | cons e L ih =>
    rw [noneOf_cons]
    have h := hp e
    constructor
    · exact mul_nonneg (by linarith) ih.1
    · nlinarith [mul_le_mul_of_nonneg_left ih.2 (show (0 : ℝ) ≤ 1 - p e by linarith)]

omit [DecidableEq E] in
theorem noneOf_lt_one {p : E → ℝ} (hp : ∀ e, 0 ≤ p e ∧ p e ≤ 1) {L : List E} :
    noneOf p L < 1 ↔ ∃ e ∈ L, 0 < p e := by
  induction L with
  | nil => simp
  | cons e L ih =>
    rw [noneOf_cons]
    have h := hp e
    have hm := noneOf_mem hp L
    constructor
    · intro hlt
      by_cases h0 : 0 < p e
      · exact ⟨e, by simp, h0⟩
      · have : p e = 0 := le_antisymm (not_lt.1 h0) h.1
        rw [this] at hlt
        obtain ⟨f, hf, hpf⟩ := ih.1 (by linarith)
        exact ⟨f, by simp [hf], hpf⟩
    · rintro ⟨f, hf, hpf⟩
      rcases List.mem_cons.1 hf with rfl | hf
      · have : (1 - p f) * noneOf p L ≤ (1 - p f) * 1 :=
          mul_le_mul_of_nonneg_left hm.2 (by linarith)
        linarith
      · have h1 := ih.2 ⟨f, hf, hpf⟩
        have : (1 - p e) * noneOf p L ≤ 1 * noneOf p L :=
          mul_le_mul_of_nonneg_right (by linarith) hm.1
        linarith

/-- Threshold used for the first link of `e :: L`. -/
noncomputable def thr (p : E → ℝ) (hit : Bool) (e : E) (L : List E) : ℝ :=
  if hit then p e else p e / (1 - noneOf p (e :: L))

/-- The links accepted when the draws are `u`. -/
noncomputable def picked (p : E → ℝ) (u : E → ℝ) : Bool → List E → List E
  | _, [] => []
  | hit, e :: L => if u e < thr p hit e L then e :: picked p u true L else picked p u hit L

/-- Threshold used for `f` when the accepted links before `f` are those satisfying `G`. -/
noncomputable def thrOf (p : E → ℝ) (G : E → Bool) : Bool → List E → E → ℝ
  | _, [], _ => 0
  | hit, e :: L, f => if f = e then thr p hit e L else thrOf p G (hit || G e) L f

omit [DecidableEq E] in
theorem picked_sublist (p u : E → ℝ) (hit : Bool) (L : List E) :
    (picked p u hit L).Sublist L := by
  induction L generalizing hit with
  | nil => simp [picked]
  | cons e L ih =>
    rw [picked]
    split
    · exact (ih true).cons_cons e
    · exact (ih hit).cons e

omit [DecidableEq E] in
theorem thr_mem {p : E → ℝ} (hp : ∀ e, 0 ≤ p e ∧ p e ≤ 1) (hit : Bool) (e : E) (L : List E) :
    0 ≤ thr p hit e L ∧ thr p hit e L ≤ 1 := by
  unfold thr
  have h := hp e
  have hm := noneOf_mem hp L
  split
  · exact h
  · have h1 : p e ≤ 1 - noneOf p (e :: L) := by
      rw [noneOf_cons]
      have : (1 - p e) * noneOf p L ≤ (1 - p e) * 1 :=
          mul_le_mul_of_nonneg_left hm.2 (by linarith)
      linarith
    have h2 := noneOf_mem hp (e :: L)
    exact ⟨div_nonneg h.1 (by linarith), div_le_one_of_le₀ h1 (by linarith)⟩

theorem thrOf_mem {p : E → ℝ} (hp : ∀ e, 0 ≤ p e ∧ p e ≤ 1) (G : E → Bool) (hit : Bool)
    (L : List E) (f : E) : 0 ≤ thrOf p G hit L f ∧ thrOf p G hit L f ≤ 1 := by
  induction L generalizing hit with
  | nil => simp [thrOf]
  | cons e L ih =>
    rw [thrOf]
    split
    · exact thr_mem hp _ _ _
    · exact ih _

/-- The sampler returns the links satisfying `G` exactly when every draw falls on the prescribed
side of its threshold. -/
theorem picked_iff (p u : E → ℝ) (G : E → Bool) (hit : Bool) {L : List E} (hL : L.Nodup) :
    (∀ e ∈ L, e ∈ picked p u hit L ↔ G e = true)
      ↔ ∀ e ∈ L, u e < thrOf p G hit L e ↔ G e = true := by
  induction L generalizing hit with
  | nil => simp
  | cons e L ih =>
    rw [List.nodup_cons] at hL
    have hne : ∀ f ∈ L, f ≠ e := fun f hf h => hL.1 (h ▸ hf)
    have hsub : ∀ hit, e ∉ picked p u hit L :=
      fun hit h => hL.1 ((picked_sublist p u hit L).subset h)
    rw [List.forall_mem_cons, List.forall_mem_cons]
    have hhead : thrOf p G hit (e :: L) e = thr p hit e L := by rw [thrOf, if_pos rfl]
    rw [hhead]
    have hmem : e ∈ picked p u hit (e :: L) ↔ u e < thr p hit e L := by
      rw [picked]
      split
      · next h => simp [h]
      · next h => simp [h, hsub]
    rw [hmem]
    refine and_congr_right (fun hG => ?_)
    have ht : ∀ f ∈ L, (u f < thrOf p G hit (e :: L) f ↔ G f = true)
        ↔ (u f < thrOf p G (hit || G e) L f ↔ G f = true) := by
      intro f hf; rw [thrOf, if_neg (hne f hf)]
    rw [forall₂_congr ht, ← ih (hit || G e) hL.2]
    refine forall₂_congr (fun f hf => ?_)
    rw [picked]
    by_cases h : u e < thr p hit e L
    · rw [if_pos h, List.mem_cons]
      have h1 : (hit || G e) = true := by rw [hG.1 h]; simp
      rw [h1]
      simp [hne f hf]
    · rw [if_neg h]
      have h1 : G e = false := by
        cases hG' : G e
        · rfl
        · exact absurd (hG.2 hG') h
      rw [h1, Bool.or_false]

/-- The product of the branch probabilities: the independent-links probability divided by the
probability of at least one link. -/
theorem prod_thrOf {p : E → ℝ} (hp : ∀ e, 0 ≤ p e ∧ p e ≤ 1) (G : E → Bool) {L : List E}
    (hL : L.Nodup) :
    (L.map (fun e => if G e then thrOf p G true L e else 1 - thrOf p G true L e)).prod
      = (L.map (fun e => if G e then p e else 1 - p e)).prod ∧
    ((∃ e ∈ L, G e = true) →
      (L.map (fun e => if G e then thrOf p G false L e else 1 - thrOf p G false L e)).prod
          * (1 - noneOf p L)
        = (L.map (fun e => if G e then p e else 1 - p e)).prod) := by
  induction L with
  | nil => simp
  | cons e L ih =>
    rw [List.nodup_cons] at hL
    obtain ⟨ih1, ih2⟩ := ih hL.2
    have hne : ∀ f ∈ L, f ≠ e := fun f hf h => hL.1 (h ▸ hf)
    have htail : ∀ hit, (L.map (fun f => if G f then thrOf p G hit (e :: L) f
          else 1 - thrOf p G hit (e :: L) f))
        = L.map (fun f => if G f then thrOf p G (hit || G e) L f
          else 1 - thrOf p G (hit || G e) L f) := by
      intro hit
      refine List.map_congr_left (fun f hf => ?_)
      rw [thrOf, if_neg (hne f hf)]
    have hhead : ∀ hit, thrOf p G hit (e :: L) e = thr p hit e L := by
      intro hit; rw [thrOf, if_pos rfl]
    simp only [List.map_cons, List.prod_cons, hhead, htail]
    refine ⟨by rw [Bool.true_or, ih1]; simp [thr], ?_⟩
    intro hex
    have hm := noneOf_mem hp (e :: L)
    by_cases hP : 1 - noneOf p (e :: L) = 0
    · have hz : ∀ f ∈ e :: L, p f = 0 := by
        intro f hf
        by_contra hc
        have := (noneOf_lt_one hp (L := e :: L)).2 ⟨f, hf, lt_of_le_of_ne (hp f).1 (Ne.symm hc)⟩
        linarith
      rw [hP, mul_zero]
      obtain ⟨f, hf, hGf⟩ := hex
      symm
      rw [← List.prod_cons, ← List.map_cons (f := fun e => if G e = true then p e else 1 - p e)]
      refine List.prod_eq_zero ?_
      rw [List.mem_map]
      exact ⟨f, hf, by rw [if_pos hGf, hz f hf]⟩
    · cases hGe : G e
      · have hex' : ∃ f ∈ L, G f = true := by
          obtain ⟨f, hf, hGf⟩ := hex
          rcases List.mem_cons.1 hf with rfl | hf
          · rw [hGe] at hGf; cases hGf
          · exact ⟨f, hf, hGf⟩
        have h2 := ih2 hex'
        simp only [Bool.false_or, Bool.false_eq_true, if_false]
        rw [← h2]
        have h3 : (1 - thr p false e L) * (1 - noneOf p (e :: L))
            = (1 - p e) * (1 - noneOf p L) := by
          unfold thr
          rw [if_neg (by simp)]
          field_simp
          rw [noneOf_cons]; ring
        linear_combination
          (L.map (fun f => if G f = true then thrOf p G false L f
            else 1 - thrOf p G false L f)).prod * h3
      · simp only [Bool.or_true, if_true]
        rw [ih1]
        have h3 : thr p false e L * (1 - noneOf p (e :: L)) = p e := by
          unfold thr
          rw [if_neg (by simp)]
          field_simp
        linear_combination
          (L.map (fun e => if G e = true then p e else 1 - p e)).prod * h3

omit [DecidableEq E] in
/-- With draws in `[0, 1)`: rejected links are not certain, accepted ones not impossible, and at
least one link is accepted if that is possible. -/
theorem picked_spec {p u : E → ℝ} (hp : ∀ e, 0 ≤ p e ∧ p e ≤ 1) (hu : ∀ e, 0 ≤ u e ∧ u e < 1)
    (hit : Bool) (L : List E) :
    (∀ e ∈ picked p u hit L, 0 < p e) ∧
    (hit = false → noneOf p L < 1 → picked p u hit L ≠ []) := by
  induction L generalizing hit with
  | nil => simp [picked]
  | cons e L ih =>
    have hm := noneOf_mem hp (e :: L)
    constructor
    · intro f hf
      rw [picked] at hf
      split at hf
      · next h =>
        rcases List.mem_cons.1 hf with rfl | hf
        · have h0 : 0 < thr p hit f L := lt_of_le_of_lt (hu f).1 h
          unfold thr at h0
          split at h0
          · exact h0
          · by_contra hc
            have : p f = 0 := le_antisymm (not_lt.1 hc) (hp f).1
            rw [this] at h0; simp at h0
        · exact (ih true).1 f hf
      · exact (ih hit).1 f hf
    · intro hh hlt
      subst hh
      rw [picked]
      split
      · simp
      · next h =>
        refine (ih false).2 rfl ?_
        have hpos : 0 < 1 - noneOf p (e :: L) := by linarith
        unfold thr at h
        rw [if_neg (by simp), not_lt, div_le_iff₀ hpos] at h
        have h1 := (hu e).2
        have h2 : p e < 1 - noneOf p (e :: L) := by nlinarith
        rw [noneOf_cons] at h2
        have h4 : noneOf p L * (1 - p e) < 1 - p e := by linarith
        have h3 := (hp e).2
        by_contra hc
        have : (1 - p e) * 1 ≤ (1 - p e) * noneOf p L :=
          mul_le_mul_of_nonneg_left (not_lt.1 hc) (by linarith)
        linarith

end Verif.Cond
