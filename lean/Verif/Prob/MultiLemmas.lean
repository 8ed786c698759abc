import Verif.Prob.Lemmas
import Mathlib.Algebra.BigOperators.Intervals
import Mathlib.Algebra.Order.BigOperators.Ring.Finset
import Mathlib.Analysis.SpecialFunctions.ExpDeriv

/-! # The loops over labels of the multi-layer models -/

namespace Verif

open scoped ENNReal
open XR Spec

/-! ## Merging two sparse rows is the same as zipping the dense rows -/

section merge

variable {σ ρ : Type} (body : σ → ℕ → XR → XR → Except ρ σ)

/-- A loop body that does nothing when one of the two values is zero. -/
def SkipsZero : Prop :=
  ∀ s k x y, (x.isZero = true ∨ y.isZero = true) → body s k x y = .ok s

theorem entry_nil {α : Type} [Zero α] (k : ℕ) : entry ([] : List (ℕ × α)) k = 0 := rfl

theorem entry_cons {α : Type} [Zero α] (a : ℕ) (v : α) (r : List (ℕ × α)) (k : ℕ) :
    entry ((a, v) :: r) k = if k = a then v else entry r k := by
  by_cases h : k = a
  · subst h; simp [entry, List.lookup]
  · have : (k == a) = false := by simpa using h
    simp [entry, List.lookup, this, h]

theorem entry_eq_zero_of_lt {α : Type} [Zero α] (r : List (ℕ × α)) (k : ℕ)
    (h : ∀ e ∈ r, k < e.1) : entry r k = 0 := by
  induction r with
  | nil => rfl
  | cons e r ih =>
    obtain ⟨a, v⟩ := e
    rw [entry_cons, if_neg, ih (fun e he => h e (List.mem_cons_of_mem _ he))]
    have := h (a, v) (List.mem_cons_self); simp at this; omega

variable {body}

theorem zipLoop_skip_left (hb : SkipsZero body) (n k : ℕ) (f g : ℕ → XR) (s : σ)
    (h : ∀ i, k ≤ i → i < k + n → (f i).isZero = true) :
    zipLoop body k ((List.range' k n).map f) ((List.range' k n).map g) s = .ok s := by
  induction n generalizing k s with
  | zero => simp [zipLoop]
  | succ n ih =>
    simp only [List.range'_succ, List.map_cons, zipLoop]
    rw [hb s k _ _ (Or.inl (h k le_rfl (by omega)))]
    exact ih (k + 1) s (fun i h1 h2 => h i (by omega) (by omega))

theorem zipLoop_skip_right (hb : SkipsZero body) (n k : ℕ) (f g : ℕ → XR) (s : σ)
    (h : ∀ i, k ≤ i → i < k + n → (g i).isZero = true) :
    zipLoop body k ((List.range' k n).map f) ((List.range' k n).map g) s = .ok s := by
  induction n generalizing k s with
  | zero => simp [zipLoop]
  | succ n ih =>
    simp only [List.range'_succ, List.map_cons, zipLoop]
    rw [hb s k _ _ (Or.inr (h k le_rfl (by omega)))]
    exact ih (k + 1) s (fun i h1 h2 => h i (by omega) (by omega))

theorem map_range'_congr {α : Type} (n k : ℕ) (f g : ℕ → α)
    (h : ∀ i, k ≤ i → i < k + n → f i = g i) :
    (List.range' k n).map f = (List.range' k n).map g := by
  apply List.map_congr_left
  intro i hi
  rw [List.mem_range'_1] at hi
  exact h i hi.1 hi.2

theorem isZero_zero : XR.isZero (0 : XR) = true := by simp [zero_def]

theorem mergeLoop_eq_zipLoop (hb : SkipsZero body) (n k : ℕ) (xs ys : List (ℕ × XR)) (s : σ)
    (hxs : RowSorted xs) (hys : RowSorted ys)
    (hx : ∀ e ∈ xs, k ≤ e.1 ∧ e.1 < k + n) (hy : ∀ e ∈ ys, k ≤ e.1 ∧ e.1 < k + n) :
    mergeLoop body xs ys s =
      zipLoop body k ((List.range' k n).map (entry xs)) ((List.range' k n).map (entry ys)) s := by
  induction n generalizing k xs ys s with
  | zero =>
    cases xs with
    | nil => simp [mergeLoop, zipLoop]
    | cons e r => have := hx e List.mem_cons_self; omega
  | succ n ih =>
    cases xs with
    | nil =>
      rw [zipLoop_skip_left hb (n + 1) k (entry []) _ _ (fun i _ _ => isZero_zero)]
      simp [mergeLoop]
    | cons e xs =>
      cases ys with
      | nil =>
        rw [zipLoop_skip_right hb (n + 1) k _ (entry []) _ (fun i _ _ => isZero_zero)]
        simp [mergeLoop]
      | cons f ys =>
        obtain ⟨a, xv⟩ := e
        obtain ⟨b, yv⟩ := f
        have ha := hx (a, xv) List.mem_cons_self
        have hb' := hy (b, yv) List.mem_cons_self
        simp only at ha hb'
        have hxt : ∀ e ∈ xs, a < e.1 := fun e he => List.rel_of_pairwise_cons hxs he
        have hyt : ∀ e ∈ ys, b < e.1 := fun e he => List.rel_of_pairwise_cons hys he
        have hxs' : RowSorted xs := List.Pairwise.of_cons hxs
        have hys' : RowSorted ys := List.Pairwise.of_cons hys
        have hxb : ∀ e ∈ xs, e.1 < k + (n + 1) := fun e he => (hx e (List.mem_cons_of_mem _ he)).2
        have hyb : ∀ e ∈ ys, e.1 < k + (n + 1) := fun e he => (hy e (List.mem_cons_of_mem _ he)).2
        -- entries of the lists above their first label
        have tailx : a = k → (List.range' (k+1) n).map (entry ((a, xv) :: xs))
            = (List.range' (k+1) n).map (entry xs) := fun h =>
          map_range'_congr _ _ _ _ (fun i h1 _ => by rw [entry_cons, if_neg (by omega)])
        have taily : b = k → (List.range' (k+1) n).map (entry ((b, yv) :: ys))
            = (List.range' (k+1) n).map (entry ys) := fun h =>
          map_range'_congr _ _ _ _ (fun i h1 _ => by rw [entry_cons, if_neg (by omega)])
        have zx : k < a → entry ((a, xv) :: xs) k = 0 := fun h =>
          entry_eq_zero_of_lt _ _ (fun e he => by
            rcases List.mem_cons.1 he with rfl | he
            · exact h
            · exact h.trans (hxt e he))
        have zy : k < b → entry ((b, yv) :: ys) k = 0 := fun h =>
          entry_eq_zero_of_lt _ _ (fun e he => by
            rcases List.mem_cons.1 he with rfl | he
            · exact h
            · exact h.trans (hyt e he))
        simp only [List.range'_succ, List.map_cons, zipLoop]
        by_cases hak : a = k
        · by_cases hbk : b = k
          · rw [tailx hak, taily hbk, entry_cons, if_pos hak.symm, entry_cons, if_pos hbk.symm,
              mergeLoop, if_pos (hak.trans hbk.symm), hak]
            cases body s k xv yv with
            | error r => rfl
            | ok s' =>
              exact ih (k+1) xs ys s' hxs' hys'
                (fun e he => ⟨by have := hxt e he; omega, by have := hxb e he; omega⟩)
                (fun e he => ⟨by have := hyt e he; omega, by have := hyb e he; omega⟩)
          · rw [zy (by omega), hb s k _ _ (Or.inr isZero_zero), tailx hak,
              mergeLoop, if_neg (by omega), if_pos (by omega)]
            exact ih (k+1) xs ((b, yv) :: ys) s hxs' hys
              (fun e he => ⟨by have := hxt e he; omega, by have := hxb e he; omega⟩)
              (fun e he => by
                rcases List.mem_cons.1 he with rfl | he
                · exact ⟨by simp; omega, by simp; omega⟩
                · exact ⟨by have := hyt e he; omega, by have := hyb e he; omega⟩)
        · by_cases hbk : b = k
          · rw [zx (by omega), hb s k _ _ (Or.inl isZero_zero), taily hbk,
              mergeLoop, if_neg (by omega), if_neg (by omega)]
            exact ih (k+1) ((a, xv) :: xs) ys s hxs hys'
              (fun e he => by
                rcases List.mem_cons.1 he with rfl | he
                · exact ⟨by simp; omega, by simp; omega⟩
                · exact ⟨by have := hxt e he; omega, by have := hxb e he; omega⟩)
              (fun e he => ⟨by have := hyt e he; omega, by have := hyb e he; omega⟩)
          · rw [zx (by omega), hb s k _ _ (Or.inl isZero_zero)]
            exact ih (k+1) ((a, xv) :: xs) ((b, yv) :: ys) s hxs hys
              (fun e he => by
                rcases List.mem_cons.1 he with rfl | he
                · exact ⟨by simp; omega, by simp; omega⟩
                · exact ⟨by have := hxt e he; omega, by have := hxb e he; omega⟩)
              (fun e he => by
                rcases List.mem_cons.1 he with rfl | he
                · exact ⟨by simp; omega, by simp; omega⟩
                · exact ⟨by have := hyt e he; omega, by have := hyb e he; omega⟩)

end merge

theorem fitBody_skips (ret : XR) (d : ℕ → XR) : SkipsZero (fitBody ret d) := by
  rintro s k x y (h | h) <;> simp [fitBody, h]
theorem invBody_skips (ret : XR) (d : ℕ → XR) : SkipsZero (invBody ret d) := by
  rintro s k x y (h | h) <;> simp [invBody, h]
theorem fitJacBody_skips (d : XR) : SkipsZero (fitJacBody d) := by
  rintro s k x y (h | h) <;> simp [fitJacBody, h]
theorem invJacBody_skips : SkipsZero invJacBody := by
  rintro s k x y (h | h) <;> simp [invJacBody, h]

/-! ## What the zip loops compute on `[0, ∞]` -/

section zip

variable (ret : XR) (D x y : ℕ → ℝ≥0∞)

theorem fitBody_eq (v : ℝ) (k : ℕ) (D' : ℕ → XR) (hD : D' k = ofENN (D k)) :
    fitBody ret D' (fin v) k (ofENN (x k)) (ofENN (y k)) =
      if D k * x k * y k = ⊤ then .error ret
      else .ok (fin (v * (1 - fitProb (D k * x k * y k)))) := by
  unfold fitBody
  rw [hD]
  by_cases h : D k = 0 ∨ x k = 0 ∨ y k = 0
  · have h0 : D k * x k * y k = 0 := by rcases h with h | h | h <;> simp [h]
    rw [if_neg (by simp; tauto), h0, if_neg (by simp), fitProb_zero]; simp
  · push Not at h
    rw [if_pos (by simp [h]), (mul3_ne_zero h.2.1 h.2.2 h.1).1]
    by_cases ht : D k * x k * y k = ⊤
    · simp [ht]
    · simp only [isInf_ofENN, ht, decide_false, Bool.false_eq_true, if_false]
      rw [one_sub_fitProb ht, ofENN_of_ne_top ht, one_def, fin_add_fin,
        fin_div_fin _ _ (one_add_toReal_pos _).ne', mul_one_div]

theorem zipLoop_fit (D' : ℕ → XR) (hD : ∀ k, D' k = ofENN (D k)) (n k : ℕ) (v : ℝ) :
    zipLoop (fitBody ret D') k ((List.range' k n).map (fun i => ofENN (x i)))
        ((List.range' k n).map (fun i => ofENN (y i))) (fin v) =
      if ∃ i ∈ Finset.Ico k (k + n), D i * x i * y i = ⊤ then .error ret
      else .ok (fin (v * ∏ i ∈ Finset.Ico k (k + n), (1 - fitProb (D i * x i * y i)))) := by
  induction n generalizing k v with
  | zero => simp [zipLoop]
  | succ n ih =>
    simp only [List.range'_succ, List.map_cons, zipLoop]
    rw [fitBody_eq ret D x y v k D' (hD k)]
    have hins : Finset.Ico k (k + (n + 1)) = insert k (Finset.Ico (k + 1) (k + 1 + n)) := by
      ext i; simp; omega
    by_cases h : D k * x k * y k = ⊤
    · rw [if_pos h, if_pos ⟨k, by simp, h⟩]
    · rw [if_neg h]
      simp only
      rw [ih (k + 1), hins, Finset.prod_insert (by simp), mul_assoc v]
      simp only [Finset.exists_mem_insert, h, false_or]

theorem invBody_eq (v : ℝ) (k : ℕ) (D' : ℕ → XR) (hD : D' k = ofENN (D k)) :
    invBody ret D' (fin v) k (ofENN (x k)) (ofENN (y k)) =
      if D k * x k * y k = ⊤ then .error ret
      else .ok (fin (v + (D k * x k * y k).toReal)) := by
  unfold invBody
  rw [hD]
  by_cases h : D k = 0 ∨ x k = 0 ∨ y k = 0
  · have h0 : D k * x k * y k = 0 := by rcases h with h | h | h <;> simp [h]
    rw [if_neg (by simp; tauto), h0, if_neg (by simp)]; simp
  · push Not at h
    rw [if_pos (by simp [h]), (mul3_ne_zero h.2.1 h.2.2 h.1).1]
    by_cases ht : D k * x k * y k = ⊤
    · simp [ht]
    · simp only [isInf_ofENN, ht, decide_false, Bool.false_eq_true, if_false]
      rw [ofENN_of_ne_top ht, fin_add_fin]

theorem zipLoop_inv (D' : ℕ → XR) (hD : ∀ k, D' k = ofENN (D k)) (n k : ℕ) (v : ℝ) :
    zipLoop (invBody ret D') k ((List.range' k n).map (fun i => ofENN (x i)))
        ((List.range' k n).map (fun i => ofENN (y i))) (fin v) =
      if ∃ i ∈ Finset.Ico k (k + n), D i * x i * y i = ⊤ then .error ret
      else .ok (fin (v + ∑ i ∈ Finset.Ico k (k + n), (D i * x i * y i).toReal)) := by
  induction n generalizing k v with
  | zero => simp [zipLoop]
  | succ n ih =>
    simp only [List.range'_succ, List.map_cons, zipLoop]
    rw [invBody_eq ret D x y v k D' (hD k)]
    have hins : Finset.Ico k (k + (n + 1)) = insert k (Finset.Ico (k + 1) (k + 1 + n)) := by
      ext i; simp; omega
    by_cases h : D k * x k * y k = ⊤
    · rw [if_pos h, if_pos ⟨k, by simp, h⟩]
    · rw [if_neg h]
      simp only
      rw [ih (k + 1), hins, Finset.sum_insert (by simp), add_assoc v]
      simp only [Finset.exists_mem_insert, h, false_or]

end zip

end Verif
