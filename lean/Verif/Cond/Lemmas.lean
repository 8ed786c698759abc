import Verif.Cond.Model
import Verif.Cond.Seq
import Verif.Coarse
import Verif.Ensemble.SampleLemmas

/-! # The conditional model on finite properties -/

namespace Verif.Cond

open scoped ENNReal NNReal
open XR Spec

/-! ## Objects with finite properties -/

/-- A fitted `ConditionalInvariantModel` with finite properties `x`, `y` and parameter `d`
(possibly infinite). -/
noncomputable def mk (n M : ℕ) (d : ℝ≥0∞) (x y : ℕ → ℝ≥0) (groups : ℕ → ℕ) (adj : Mat)
    (s : Bool) : Obj :=
  { n := n, M := M, prop_out := fun i => fin (x i), prop_in := fun i => fin (y i),
    groups := groups, adj := adj, param := some (ofENN d), selfloops := s }

/-- The unconditioned scale-invariant ensemble with the same properties and parameter. -/
noncomputable def fine (d : ℝ≥0∞) (x y : ℕ → ℝ≥0) : Ens :=
  Ens.sparseInv d (fun i => (x i : ℝ≥0∞)) (fun i => (y i : ℝ≥0∞)) (fun _ _ => 1)

theorem fine_coherent (d : ℝ≥0∞) (x y : ℕ → ℝ≥0) : (fine d x y).Coherent :=
  Ens.isModel_coherent (.sparseInv _ _ _ _)

/-- Its link probabilities. -/
noncomputable def pr (d : ℝ≥0∞) (x y : ℕ → ℝ≥0) : ℕ × ℕ → ℝ := (fine d x y).prob

theorem fin_coe (r : ℝ≥0) : fin (r : ℝ) = ofENN (r : ℝ≥0∞) := by
  rw [ofENN_of_ne_top ENNReal.coe_ne_top]; rfl

theorem p_ij_eq (d : ℝ≥0∞) (x y : ℕ → ℝ≥0) (e : ℕ × ℕ) :
    Sparse.ScaleInvariantModel.p_ij (ofENN d) (fin (x e.1)) (fin (y e.2)) 1 = fin (pr d x y e) := by
  have := (fine_coherent d x y).p_eq e.1 e.2
  rw [fin_coe, fin_coe]
  have h1 : ofENN 1 = (1 : XR) := by
    rw [ofENN_of_ne_top ENNReal.one_ne_top]; rfl
  unfold Ens.p at this
  simp only [fine, Ens.sparseInv, Ens.arr, h1] at this
  exact this

theorem pr_eq (d : ℝ≥0∞) (x y : ℕ → ℝ≥0) (e : ℕ × ℕ) :
    pr d x y e = invProb (d * x e.1 * y e.2) := by
  have h := p_ij_eq d x y e
  have h1 : ofENN 1 = (1 : XR) := by
    rw [ofENN_of_ne_top ENNReal.one_ne_top]; rfl
  rw [fin_coe, fin_coe, ← h1, sparse_inv_p_ij, mul_one, fin_inj] at h
  exact h.symm

theorem pr_mem (d : ℝ≥0∞) (x y : ℕ → ℝ≥0) (e : ℕ × ℕ) : 0 ≤ pr d x y e ∧ pr d x y e ≤ 1 :=
  (fine_coherent d x y).prob_mem e

theorem pr_pos {d : ℝ≥0∞} {x y : ℕ → ℝ≥0} {e : ℕ × ℕ} :
    0 < pr d x y e ↔ d ≠ 0 ∧ 0 < x e.1 ∧ 0 < y e.2 := by
  rw [pr_eq]
  constructor
  · intro h
    have hne : d * x e.1 * y e.2 ≠ 0 := fun h0 => by rw [h0, invProb_zero] at h; exact lt_irrefl _ h
    refine ⟨fun h0 => hne (by simp [h0]), ?_, ?_⟩
    · exact pos_iff_ne_zero.2 (fun h0 => hne (by simp [h0]))
    · exact pos_iff_ne_zero.2 (fun h0 => hne (by simp [h0]))
  · rintro ⟨hd, hx, hy⟩
    exact invProb_pos (mul_ne_zero (mul_ne_zero hd (by simpa using hx.ne')) (by simpa using hy.ne'))

theorem invProb_add (s t : ℝ≥0∞) :
    (1 - invProb s) * (1 - invProb t) = 1 - invProb (s + t) := by
  by_cases hs : s = ⊤
  · subst hs; simp [invProb_top]
  by_cases ht : t = ⊤
  · subst ht; simp [invProb_top]
  rw [one_sub_invProb hs, one_sub_invProb ht, one_sub_invProb (ENNReal.add_ne_top.2 ⟨hs, ht⟩),
    ← Real.exp_add, ENNReal.toReal_add hs ht]
  congr 1; ring

theorem invProb_sum {ι : Type} (S : Finset ι) (t : ι → ℝ≥0∞) :
    ∏ e ∈ S, (1 - invProb (t e)) = 1 - invProb (∑ e ∈ S, t e) := by
  classical
  induction S using Finset.induction_on with
  | empty => simp [invProb_zero]
  | insert e S he ih => rw [Finset.prod_insert he, Finset.sum_insert he, ih, invProb_add]

/-! ## Aggregates -/

/-- Sum of `v` over a group. -/
def groupSum (n : ℕ) (groups : ℕ → ℕ) (v : ℕ → ℝ≥0) (a : ℕ) : ℝ≥0 :=
  ∑ i ∈ (Finset.range n).filter (fun i => groups i = a), v i

theorem agg_eq (n : ℕ) (groups : ℕ → ℕ) (v : ℕ → ℝ≥0) (a : ℕ) :
    agg n groups (fun i => fin (v i)) a = fin (groupSum n groups v a) := by
  unfold agg groupSum
  have h0 : zeros = fun k => fin ((0 : ℕ → ℝ) k) := rfl
  rw [h0, foldl_rep (fun (f : ℕ → ℝ) k => fin (f k)) _
    (fun i => (Pi.single (groups i) (v i : ℝ) : ℕ → ℝ)) n
    (fun i _ a => addAt_fin a (groups i) (v i))]
  rw [fin_inj, zero_add, Finset.sum_apply, Finset.sum_filter]
  push_cast
  refine Finset.sum_congr rfl (fun i _ => ?_)
  rw [Pi.single_apply]
  simp only [eq_comm (a := a)]
  split <;> rfl

section
variable {n M : ℕ} {d : ℝ≥0∞} {x y : ℕ → ℝ≥0} {groups : ℕ → ℕ} {adj : Mat} {s : Bool}

theorem aggOut_eq (a : ℕ) :
    (mk n M d x y groups adj s).aggOut a = fin (groupSum n groups x a) := agg_eq n groups x a
theorem aggIn_eq (a : ℕ) :
    (mk n M d x y groups adj s).aggIn a = fin (groupSum n groups y a) := agg_eq n groups y a
theorem aggDiag_eq (a : ℕ) :
    (mk n M d x y groups adj s).aggDiag a = fin (groupSum n groups (fun i => x i * y i) a) := by
  rw [← agg_eq]
  unfold Obj.aggDiag mk
  simp only [fin_mul_fin, NNReal.coe_mul]

/-- Sum of the products of the properties over the possible links between two groups. -/
def blockSum (n : ℕ) (s : Bool) (groups : ℕ → ℕ) (x y : ℕ → ℝ≥0) (k : ℕ × ℕ) : ℝ≥0 :=
  ∑ e ∈ Law.block (Law.pairs n s) groups k, x e.1 * y e.2

theorem blockSum_loops (k : ℕ × ℕ) (h : s = true ∨ k.1 ≠ k.2) :
    blockSum n s groups x y k = groupSum n groups x k.1 * groupSum n groups y k.2 := by
  unfold blockSum groupSum
  rw [Finset.sum_mul_sum, ← Finset.sum_product']
  refine Finset.sum_congr ?_ (fun _ _ => rfl)
  ext ⟨i, j⟩
  simp only [Law.block, Finset.mem_filter, Law.mem_pairs, Finset.mem_product, Finset.mem_range]
  constructor
  · rintro ⟨⟨hi, hj, _⟩, hk⟩
    subst hk
    exact ⟨⟨hi, rfl⟩, hj, rfl⟩
  · rintro ⟨⟨hi, h1⟩, hj, h2⟩
    refine ⟨⟨hi, hj, ?_⟩, Prod.ext h1 h2⟩
    rcases h with h | h
    · exact Or.inr h
    · left; rintro rfl; exact h (h1.symm.trans h2)

theorem blockSum_noloops (a : ℕ) :
    blockSum n false groups x y (a, a) + groupSum n groups (fun i => x i * y i) a
      = groupSum n groups x a * groupSum n groups y a := by
  rw [← blockSum_loops (n := n) (s := true) (groups := groups) (x := x) (y := y) (a, a) (Or.inl rfl)]
  have h1 : groupSum n groups (fun i => x i * y i) a
      = ∑ e ∈ (Law.block (Law.pairs n true) groups (a, a)).filter (fun e => e.1 = e.2),
          x e.1 * y e.2 := by
    unfold groupSum
    refine Finset.sum_bij (fun i _ => (i, i)) ?_ ?_ ?_ ?_
    · intro i hi
      simp only [Finset.mem_filter, Finset.mem_range] at hi
      simp [Law.block, Law.mem_pairs, hi.1, hi.2]
    · intro i _ j _ h; exact (Prod.mk.inj h).1
    · rintro ⟨i, j⟩ h
      simp only [Law.block, Finset.mem_filter, Law.mem_pairs, Prod.mk.injEq] at h
      obtain ⟨⟨⟨hi, _, _⟩, hg, _⟩, rfl⟩ := h
      exact ⟨i, by simp [hi, hg], rfl⟩
    · intro i _; rfl
  have h2 : blockSum n false groups x y (a, a)
      = ∑ e ∈ (Law.block (Law.pairs n true) groups (a, a)).filter (fun e => ¬ e.1 = e.2),
          x e.1 * y e.2 := by
    unfold blockSum
    refine Finset.sum_congr ?_ (fun _ _ => rfl)
    ext ⟨i, j⟩
    simp only [Law.block, Finset.mem_filter, Law.mem_pairs]
    simp
    tauto
  rw [h1, h2, add_comm, Finset.sum_filter_add_sum_filter_not]
  rfl

theorem divZ_fin {a b : ℝ} (hb : b ≠ 0) : divZ (fin a) (fin b) = .ok (fin (a / b)) := by
  unfold divZ
  rw [if_neg (by simpa using hb), fin_div_fin _ _ hb]

theorem divZ_zero (a : XR) : divZ a (fin 0) = .error .zeroDivision := by
  unfold divZ; rw [if_pos (by simp)]

/-- `zAgg` is the ratio of the block sum to the product of the group sums. -/
theorem zAgg_eq (a b : ℕ) (hx : 0 < groupSum n groups x a) (hy : 0 < groupSum n groups y b) :
    (mk n M d x y groups adj s).zAgg a b
      = .ok (fin (blockSum n s groups x y (a, b)
          / (groupSum n groups x a * groupSum n groups y b) : ℝ≥0)) := by
  unfold Obj.zAgg
  rw [aggDiag_eq, aggOut_eq, aggIn_eq]
  have hne : groupSum n groups x a * groupSum n groups y b ≠ 0 := mul_ne_zero hx.ne' hy.ne'
  have hs : (mk n M d x y groups adj s).selfloops = s := rfl
  rw [hs]
  by_cases h : s = true ∨ a ≠ b
  · have : (!s && a == b) = false := by
      rcases h with h | h
      · simp [h]
      · simp [h]
    simp only [this, Bool.false_eq_true, if_false]
    rw [blockSum_loops (a, b) h, div_self hne]
    rfl
  · push Not at h
    obtain ⟨h1, rfl⟩ := h
    obtain rfl : s = false := by simpa using h1
    simp only [Bool.not_false, Bool.true_and, beq_self_eq_true, if_true, fin_mul_fin]
    rw [divZ_fin (by exact_mod_cast hne)]
    show Except.ok _ = _
    rw [one_def, fin_sub_fin]
    congr 2
    have h2 := blockSum_noloops (n := n) (groups := groups) (x := x) (y := y) a
    have h3 : (blockSum n false groups x y (a, a) : ℝ) + groupSum n groups (fun i => x i * y i) a
      = groupSum n groups x a * groupSum n groups y a := by exact_mod_cast h2
    have h4 : ((groupSum n groups x a : ℝ) * groupSum n groups y a) ≠ 0 := by exact_mod_cast hne
    push_cast
    field_simp
    linarith

theorem noneOf_block (k : ℕ × ℕ) :
    ∏ e ∈ Law.block (Law.pairs n s) groups k, (1 - pr d x y e)
      = 1 - invProb (d * blockSum n s groups x y k) := by
  simp only [pr_eq]
  rw [invProb_sum]
  congr 2
  unfold blockSum
  push_cast
  rw [Finset.mul_sum]
  exact Finset.sum_congr rfl (fun e _ => by rw [mul_assoc])

/-- Probability of the coarse link `(a, b)`. -/
theorem pAgg_eq (a b : ℕ) (hx : 0 < groupSum n groups x a) (hy : 0 < groupSum n groups y b) :
    pAgg (mk n M d x y groups adj s) (ofENN d) a b
      = .ok (fin (1 - ∏ e ∈ Law.block (Law.pairs n s) groups (a, b), (1 - pr d x y e))) := by
  unfold pAgg
  rw [zAgg_eq a b hx hy]
  show Except.ok _ = _
  rw [aggOut_eq, aggIn_eq, fin_coe, fin_coe, fin_coe, sparse_inv_p_ij, noneOf_block, sub_sub_cancel]
  congr 3
  rw [mul_assoc, mul_assoc, ← ENNReal.coe_mul, ← ENNReal.coe_mul]
  congr 2
  have h1 := hx.ne'
  have h2 := hy.ne'
  field_simp

theorem groupSum_pos {v : ℕ → ℝ≥0} {i : ℕ} (hi : i < n) (hv : 0 < v i) :
    0 < groupSum n groups v (groups i) := by
  unfold groupSum
  exact lt_of_lt_of_le hv (Finset.single_le_sum (f := v) (fun _ _ => zero_le)
    (by simp [hi]))

/-! ## The list of possible links of a coarse link -/

/-- The pairs in the order in which they are visited. -/
def blockList (o : Obj) (a b : ℕ) : List (ℕ × ℕ) :=
  (o.members a).flatMap (fun i => (o.members b).flatMap (fun j =>
    if admissible i j o.selfloops then [(i, j)] else []))

theorem mem_members {o : Obj} {a i : ℕ} : i ∈ o.members a ↔ i < o.n ∧ o.groups i = a := by
  simp [Obj.members]

theorem mem_blockList {o : Obj} {a b : ℕ} {e : ℕ × ℕ} :
    e ∈ blockList o a b ↔ e ∈ Law.block (Law.pairs o.n o.selfloops) o.groups (a, b) := by
  obtain ⟨i, j⟩ := e
  simp only [blockList, List.mem_flatMap, mem_members, Law.block, Finset.mem_filter, Law.mem_pairs,
    Prod.mk.injEq]
  constructor
  · rintro ⟨i', ⟨hi, ha⟩, j', ⟨hj, hb⟩, h⟩
    split at h
    · next hadm =>
      simp only [List.mem_singleton, Prod.mk.injEq] at h
      obtain ⟨rfl, rfl⟩ := h
      exact ⟨⟨hi, hj, admissible_iff.1 hadm⟩, ha, hb⟩
    · simp at h
  · rintro ⟨⟨hi, hj, hadm⟩, ha, hb⟩
    exact ⟨i, ⟨hi, ha⟩, j, ⟨hj, hb⟩, by simp [admissible_iff.2 hadm]⟩

theorem nodup_blockList (o : Obj) (a b : ℕ) : (blockList o a b).Nodup := by
  unfold blockList
  have hm : ∀ a, (o.members a).Nodup := fun a => List.nodup_range.filter _
  rw [List.nodup_flatMap]
  refine ⟨fun i _ => ?_, ?_⟩
  · rw [List.nodup_flatMap]
    refine ⟨fun j _ => by split <;> simp, ?_⟩
    refine (hm b).imp (fun {a b} hab => ?_)
    intro e h1 h2
    dsimp only at h1 h2
    split at h1 <;> split at h2 <;> simp_all
  · refine (hm a).imp (fun {a b} hab => ?_)
    intro e h1 h2
    simp only [List.mem_flatMap] at h1 h2
    obtain ⟨j, _, h1⟩ := h1
    obtain ⟨k, _, h2⟩ := h2
    split at h1 <;> split at h2 <;> simp_all

theorem toFinset_blockList (o : Obj) (a b : ℕ) :
    (blockList o a b).toFinset = Law.block (Law.pairs o.n o.selfloops) o.groups (a, b) := by
  ext e; rw [List.mem_toFinset, mem_blockList]

theorem foldlM_flatMap {α γ σ ε : Type} (f : σ → γ → Except ε σ) (g : α → List γ) (l : List α)
    (s : σ) : (l.flatMap g).foldlM f s = l.foldlM (fun s a => (g a).foldlM f s) s := by
  induction l generalizing s with
  | nil => rfl
  | cons a l ih =>
    rw [List.flatMap_cons, List.foldlM_append, List.foldlM_cons]
    congr 1
    funext s
    exact ih s

theorem blockLoop_list {ω : Type} (o : Obj) (d : XR) (u : ℕ → ℕ → ℝ)
    (val : ℕ → ℕ → XR → Except Err ω) (a b : ℕ) (st : St ω) :
    blockLoop o d u val a b st
      = (blockList o a b).foldlM (fun st e => pairStep o d u val st e.1 e.2) st := by
  unfold blockLoop blockList
  rw [foldlM_flatMap]
  congr 1
  funext st i
  rw [foldlM_flatMap]
  congr 1
  funext st j
  split
  · simp only [List.foldlM_cons, List.foldlM_nil]
    cases pairStep o d u val st i j <;> rfl
  · next h =>
    unfold pairStep
    rw [if_neg h]; rfl

/-- The pair loop of the sampler picks exactly the links described in `Verif.Cond.Seq`. -/
theorem loop_eq {ω : Type} {val : ℕ → ℕ → XR → Except Err ω} {v : ℕ × ℕ → ω}
    (hv : ∀ e, 0 < pr d x y e → val e.1 e.2 (fin (pr d x y e)) = .ok (v e))
    {u : ℕ → ℕ → ℝ} (hu : ∀ i j, 0 ≤ u i j ∧ u i j < 1) (L : List (ℕ × ℕ))
    (hL : ∀ e ∈ L, admissible e.1 e.2 s = true) :
    ∀ (hit : Bool) (r : ℝ) (rows : List ((ℕ × ℕ) × ω)),
      (hit = false → r = 1 - noneOf (pr d x y) L ∧ noneOf (pr d x y) L < 1) →
      ∃ hit' r', L.foldlM (fun st e => pairStep (mk n M d x y groups adj s) (ofENN d) u val
          st e.1 e.2) ⟨rows, hit, fin r⟩
        = .ok ⟨rows ++ (picked (pr d x y) (fun e => u e.1 e.2) hit L).map (fun e => (e, v e)),
            hit', fin r'⟩ := by
  induction L with
  | nil => intro hit r rows _; exact ⟨hit, r, by simp [picked, pure, Except.pure]⟩
  | cons e L ih =>
    intro hit r rows hr
    have hp := pr_mem d x y
    have hadm : admissible e.1 e.2 (mk n M d x y groups adj s).selfloops = true := hL e (by simp)
    have hpe : Sparse.ScaleInvariantModel.p_ij (ofENN d)
        ((mk n M d x y groups adj s).prop_out e.1) ((mk n M d x y groups adj s).prop_in e.2) 1
        = fin (pr d x y e) := p_ij_eq d x y e
    have ih' := ih (fun f hf => hL f (by simp [hf]))
    have hps : (if hit = true then Except.ok (fin (pr d x y e))
        else divZ (fin (pr d x y e)) (fin r) : Except Err XR)
        = .ok (fin (thr (pr d x y) hit e L)) := by
      unfold thr
      cases hit
      · obtain ⟨h1, h2⟩ := hr rfl
        simp only [Bool.false_eq_true, if_false]
        rw [divZ_fin (by rw [h1]; linarith), h1]
      · simp
    have hpos := (picked_spec hp (fun e : ℕ × ℕ => hu e.1 e.2) hit (e :: L)).1
    rw [picked] at hpos ⊢
    rw [List.foldlM_cons]
    unfold pairStep
    simp only [hadm, if_true, hpe, hps]
    by_cases hlt : u e.1 e.2 < thr (pr d x y) hit e L
    · rw [if_pos hlt] at hpos ⊢
      have h0 := hpos e (by simp)
      obtain ⟨hit', r', h⟩ := ih' true r (rows ++ [(e, v e)]) (by simp)
      refine ⟨hit', r', ?_⟩
      have : ltb (fin (u e.1 e.2)) (fin (thr (pr d x y) hit e L)) = true := by simpa using hlt
      show ((if ltb (fin (u e.1 e.2)) (fin (thr (pr d x y) hit e L)) = true then _ else _)
        >>= _) = _
      rw [if_pos this, hv e h0]
      refine Eq.trans h ?_
      simp
    · rw [if_neg hlt] at hpos ⊢
      have hlt1 : pr d x y e < 1 := by
        rw [not_lt] at hlt
        have hu1 := (hu e.1 e.2).2
        unfold thr at hlt
        cases hit
        · obtain ⟨h1, h2⟩ := hr rfl
          rw [if_neg (by simp), div_le_iff₀ (by linarith)] at hlt
          have := (noneOf_mem hp (e :: L)).1
          nlinarith
        · rw [if_pos rfl] at hlt; linarith
      have : ltb (fin (u e.1 e.2)) (fin (thr (pr d x y) hit e L)) = false := by
        simpa using hlt
      have hr' : hit = false → 1 - (1 - r) / (1 - pr d x y e) = 1 - noneOf (pr d x y) L
          ∧ noneOf (pr d x y) L < 1 := by
        intro hh
        obtain ⟨h1, h2⟩ := hr hh
        constructor
        · rw [h1, noneOf_cons]
          have : (1 - pr d x y e) ≠ 0 := by linarith
          field_simp
          ring
        · by_contra hc
          subst hh
          have hne := (picked_spec hp (fun e : ℕ × ℕ => hu e.1 e.2) false (e :: L)).2 rfl h2
          rw [picked, if_neg hlt] at hne
          obtain ⟨f, hf⟩ := List.exists_mem_of_ne_nil _ hne
          have hf2 := hpos f hf
          exact hc ((noneOf_lt_one hp).2
            ⟨f, (picked_sublist _ _ _ _).subset hf, hf2⟩)
      obtain ⟨hit', r', h⟩ := ih' hit (1 - (1 - r) / (1 - pr d x y e)) rows hr'
      refine ⟨hit', r', ?_⟩
      show ((if ltb (fin (u e.1 e.2)) (fin (thr (pr d x y) hit e L)) = true then _ else _)
        >>= _) = _
      rw [if_neg (by rw [this]; simp), one_def, fin_sub_fin, fin_sub_fin,
        divZ_fin (by linarith)]
      show (Except.ok _ >>= _) = _
      rw [fin_sub_fin]
      exact h

/-! ## The coarse graph -/

/-- The compressed matrix stores exactly the links `A` of a graph on the groups `0..M-1`, without
duplicates. -/
structure Stores (M : ℕ) (adj : Mat) (A : Finset (ℕ × ℕ)) : Prop where
  mem : ∀ a b, (a, b) ∈ A ↔ a < M ∧ b ∈ adj.row a
  lt : ∀ a b, (a, b) ∈ A → b < M
  nodup : ∀ a < M, (adj.row a).Nodup

/-- The coarse links in the order in which they are visited. -/
def coarseList (M : ℕ) (adj : Mat) : List (ℕ × ℕ) :=
  (List.range M).flatMap (fun a => (adj.row a).map (fun b => (a, b)))

theorem mem_coarseList {A : Finset (ℕ × ℕ)} (h : Stores M adj A) {k : ℕ × ℕ} :
    k ∈ coarseList M adj ↔ k ∈ A := by
  obtain ⟨a, b⟩ := k
  rw [h.mem]
  simp [coarseList]

theorem nodup_coarseList {A : Finset (ℕ × ℕ)} (h : Stores M adj A) : (coarseList M adj).Nodup := by
  unfold coarseList
  rw [List.nodup_flatMap]
  refine ⟨fun a ha => ?_, ?_⟩
  · rw [List.nodup_map_iff (fun b b' h => (Prod.mk.inj h).2)]
    exact h.nodup a (by simpa using ha)
  · refine List.nodup_range.imp (fun {a b} hab => ?_)
    intro e h1 h2
    simp only [List.mem_map] at h1 h2
    obtain ⟨_, _, rfl⟩ := h1
    obtain ⟨_, _, h2⟩ := h2
    exact hab (Prod.mk.inj h2).1.symm

theorem foldlM_append_ok {α γ ε : Type} (f : List γ → α → Except ε (List γ)) (g : α → List γ)
    (l : List α) (h : ∀ k ∈ l, ∀ rows, f rows k = .ok (rows ++ g k)) (init : List γ) :
    l.foldlM f init = .ok (init ++ l.flatMap g) := by
  induction l generalizing init with
  | nil => simp [pure, Except.pure]
  | cons a l ih =>
    rw [List.foldlM_cons, h a (by simp)]
    show l.foldlM f (init ++ g a) = _
    rw [ih (fun k hk => h k (by simp [hk])), List.flatMap_cons, List.append_assoc]

/-- Every coarse link is possible: it contains a possible link of positive probability. -/
def Feasible (n : ℕ) (s : Bool) (p : ℕ × ℕ → ℝ) (groups : ℕ → ℕ) (A : Finset (ℕ × ℕ)) : Prop :=
  ∀ k ∈ A, ∃ e ∈ Law.pairs n s, (groups e.1, groups e.2) = k ∧ 0 < p e

theorem block_run {ω : Type} {val : ℕ → ℕ → XR → Except Err ω} {v : ℕ × ℕ → ω}
    (hv : ∀ e, 0 < pr d x y e → val e.1 e.2 (fin (pr d x y e)) = .ok (v e))
    {u : ℕ → ℕ → ℝ} (hu : ∀ i j, 0 ≤ u i j ∧ u i j < 1) {k : ℕ × ℕ}
    (hk : ∃ e ∈ Law.pairs n s, (groups e.1, groups e.2) = k ∧ 0 < pr d x y e) :
    ∃ r : ℝ, r ≠ 0 ∧ r = 1 - noneOf (pr d x y) (blockList (mk n M d x y groups adj s) k.1 k.2) ∧
      pAgg (mk n M d x y groups adj s) (ofENN d) k.1 k.2 = .ok (fin r) ∧
      ∀ rows, ∃ hit' r', blockLoop (mk n M d x y groups adj s) (ofENN d) u val k.1 k.2
          ⟨rows, false, fin r⟩
        = .ok ⟨rows ++ (picked (pr d x y) (fun e => u e.1 e.2) false
            (blockList (mk n M d x y groups adj s) k.1 k.2)).map (fun e => (e, v e)),
            hit', fin r'⟩ := by
  obtain ⟨e, he, hek, hpe⟩ := hk
  obtain ⟨a, b⟩ := k
  obtain ⟨ha, hb⟩ := Prod.mk.inj hek
  subst ha hb
  have hm := Law.mem_pairs.1 (show (e.1, e.2) ∈ _ from he)
  obtain ⟨_, hxe, hye⟩ := pr_pos.1 hpe
  have hlt : noneOf (pr d x y)
      (blockList (mk n M d x y groups adj s) (groups e.1) (groups e.2)) < 1 := by
    rw [noneOf_lt_one (pr_mem d x y)]
    refine ⟨e, mem_blockList.2 ?_, hpe⟩
    exact Finset.mem_filter.2 ⟨he, rfl⟩
  refine ⟨1 - noneOf (pr d x y)
    (blockList (mk n M d x y groups adj s) (groups e.1) (groups e.2)), by linarith, rfl, ?_, ?_⟩
  · rw [pAgg_eq _ _ (groupSum_pos hm.1 hxe) (groupSum_pos hm.2.1 hye),
      noneOf_eq_prod _ (nodup_blockList _ _ _), toFinset_blockList]
    rfl
  · intro rows
    obtain ⟨hit', r', h⟩ := loop_eq (n := n) (M := M) (groups := groups) (adj := adj) (s := s) hv hu
      (blockList (mk n M d x y groups adj s) (groups e.1) (groups e.2))
      (fun f hf => by
        have := (Finset.mem_filter.1 (mem_blockList.1 hf)).1
        exact admissible_iff.2 (Law.mem_pairs.1 (show (f.1, f.2) ∈ _ from this)).2.2)
      false _ rows (fun _ => ⟨rfl, hlt⟩)
    exact ⟨hit', r', by rw [blockLoop_list]; exact h⟩

/-- The links picked for all coarse links. -/
noncomputable def pickedAll (o : Obj) (p : ℕ × ℕ → ℝ) (u : ℕ → ℕ → ℝ) : List (ℕ × ℕ) :=
  (coarseList o.M o.adj).flatMap (fun k =>
    picked p (fun e => u e.1 e.2) false (blockList o k.1 k.2))

theorem binary_sample_eq {A : Finset (ℕ × ℕ)} (hA : Stores M adj A)
    (hF : Feasible n s (pr d x y) groups A)
    {u : ℕ → ℕ → ℝ} (hu : ∀ i j, 0 ≤ u i j ∧ u i j < 1) :
    binary_sample (mk n M d x y groups adj s) (ofENN d) u
      = .ok ((pickedAll (mk n M d x y groups adj s) (pr d x y) u).map (fun e => (e, ()))) := by
  unfold binary_sample
  have h1 : (List.range (mk n M d x y groups adj s).M).foldlM (fun rows a =>
      ((mk n M d x y groups adj s).adj.row a).foldlM (fun rows b =>
        pAgg (mk n M d x y groups adj s) (ofENN d) a b >>= fun pnorm =>
        blockLoop (mk n M d x y groups adj s) (ofENN d) u (fun _ _ _ => .ok ()) a b
          ⟨rows, false, pnorm⟩ >>= fun st => .ok st.rows) rows) []
      = (coarseList M adj).foldlM (fun rows k =>
        pAgg (mk n M d x y groups adj s) (ofENN d) k.1 k.2 >>= fun pnorm =>
        blockLoop (mk n M d x y groups adj s) (ofENN d) u (fun _ _ _ => .ok ()) k.1 k.2
          ⟨rows, false, pnorm⟩ >>= fun st => .ok st.rows) [] := by
    unfold coarseList
    rw [foldlM_flatMap]
    congr 1
    funext rows a
    rw [List.foldlM_map]
    rfl
  rw [h1, foldlM_append_ok _ (fun k => (picked (pr d x y) (fun e => u e.1 e.2) false
            (blockList (mk n M d x y groups adj s) k.1 k.2)).map (fun e => (e, ())))]
  · unfold pickedAll
    rw [List.map_flatMap, List.nil_append]
    rfl
  · intro k hk rows
    have hkA := (mem_coarseList hA).1 hk
    obtain ⟨r, _, _, hp, hl⟩ := block_run (n := n) (M := M) (groups := groups) (adj := adj) (s := s)
      (val := fun _ _ _ => .ok ()) (v := fun _ => ()) (fun _ _ => rfl) hu (hF k hkA)
    obtain ⟨hit', r', h⟩ := hl rows
    rw [hp]
    show (blockLoop _ _ _ _ _ _ ⟨rows, false, fin r⟩ >>= _) = _
    rw [h]; rfl

end

end Verif.Cond
