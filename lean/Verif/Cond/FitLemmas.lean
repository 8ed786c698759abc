import Verif.Cond.Fit
import Verif.Cond.Ratio
import Verif.Cond.MeanProps

/-! # The objective of the density fit of the conditional model -/

namespace Verif.Cond

noncomputable section

open scoped ENNReal NNReal
open XR Spec

/-- What the code returns for a pair with product `a` in a block with sum `b`. -/
def codeF (a b t : ℝ) : ℝ :=
  if a = 0 then 0 else if 1 - Real.exp (-(t * b)) < 1 / 10 ^ 12 then a / b else ratio a b t

/-- The derivative it returns. -/
def codeJ (a b t : ℝ) : ℝ :=
  if a = 0 then 0 else if 1 - Real.exp (-(t * b)) < 1 / 10 ^ 12 then ratio' a b 0
  else ratio' a b t

/-- The probability of the pair given its coarse link. -/
def linkF (a b t : ℝ) : ℝ := if a = 0 then 0 else ratio a b t

theorem p_jac_ij_fin {t : ℝ} (ht : 0 ≤ t) {X Y B xi yj : ℝ≥0} (hX : 0 < X) (hY : 0 < Y)
    (hB : 0 < B) :
    p_jac_ij (fin t) (fin xi) (fin yj) 1 (fin X) (fin Y) (fin (B / (X * Y) : ℝ≥0))
      = (fin (codeF (xi * yj) B t), fin (codeJ (xi * yj) B t)) := by
  have hz : 0 < B / (X * Y) := by positivity
  have hX' : (0 : ℝ) < X := hX
  have hY' : (0 : ℝ) < Y := hY
  have hB' : (0 : ℝ) < B := hB
  unfold p_jac_ij
  by_cases h0 : xi = 0 ∨ yj = 0
  · have h1 : (xi * yj : ℝ) = 0 := by rcases h0 with h | h <;> simp [h]
    rw [if_pos (by rcases h0 with h | h <;> simp [h]), codeF, codeJ, if_pos h1, if_pos h1]
    rfl
  · push Not at h0
    have hx' : (0 : ℝ) < xi := NNReal.coe_pos.2 (pos_iff_ne_zero.2 h0.1)
    have hy' : (0 : ℝ) < yj := NNReal.coe_pos.2 (pos_iff_ne_zero.2 h0.2)
    have e1 : ((fin (X : ℝ)).isZero || (fin (Y : ℝ)).isZero || (fin ((B / (X * Y) : ℝ≥0) : ℝ)).isZero
        || (fin (xi : ℝ)).isZero || (fin (yj : ℝ)).isZero || (1 : XR).isZero) = false := by
      have a1 : (fin (X : ℝ)).isZero = false := by simpa using hX.ne'
      have a2 : (fin (Y : ℝ)).isZero = false := by simpa using hY.ne'
      have a3 : (fin ((B / (X * Y) : ℝ≥0) : ℝ)).isZero = false := by
        rw [isZero_fin, decide_eq_false_iff_not]; exact_mod_cast hz.ne'
      have a4 : (fin (xi : ℝ)).isZero = false := by simpa using h0.1
      have a5 : (fin (yj : ℝ)).isZero = false := by simpa using h0.2
      have a6 : (1 : XR).isZero = false := by simp [one_def]
      rw [a1, a2, a3, a4, a5, a6]; rfl
    have hz' : ((B / (X * Y) : ℝ≥0) : ℝ) = B / (X * Y) := by push_cast; rfl
    have hzp : (0 : ℝ) < B / (X * Y) := by positivity
    have eb : (X : ℝ) * Y * (B / (X * Y)) = B := by field_simp
    have ha : (xi * yj : ℝ) ≠ 0 := (mul_pos hx' hy').ne'
    rw [if_neg (by rw [e1]; simp)]
    simp only [one_def, hz', fin_mul_fin, mul_one, eb, neg_fin,
      expm1_fin, exp_fin, ltb_fin_fin, decide_eq_true_eq, isInf_fin, neg_sub]
    rw [codeF, codeJ, if_neg ha, if_neg ha]
    by_cases hc : 1 - Real.exp (-(t * B)) < 1 / 10 ^ 12
    · rw [if_pos hc, if_pos hc, if_pos hc, fin_div_fin _ _ hX'.ne', fin_div_fin _ _ hY'.ne',
        fin_div_fin _ _ hzp.ne', fin_div_fin _ _ (by positivity), fin_mul_fin, fin_mul_fin,
        fin_sub_fin, fin_mul_fin, ratio', if_pos rfl]
      congr 2
      field_simp
    · have hne : 1 - Real.exp (-(t * B)) ≠ 0 := by
        intro h; rw [h] at hc; exact hc (by norm_num)
      have ht0 : t ≠ 0 := by
        rintro rfl; simp at hne
      rw [if_neg hc, if_neg hc, if_neg hc, fin_div_fin _ _ hne, fin_div_fin _ _ hne,
        fin_div_fin _ _ (mul_ne_zero hne hne), fin_sub_fin, ratio_of_ne ht0, ratio'_of_ne ht0, sq]
      simp only [Bool.false_eq_true, if_false]

theorem p_jac_ij_pinf {X Y B xi yj : ℝ≥0} (hX : 0 < X) (hY : 0 < Y) (hB : 0 < B) :
    p_jac_ij pinf (fin xi) (fin yj) 1 (fin X) (fin Y) (fin (B / (X * Y) : ℝ≥0))
      = (fin (if (xi * yj : ℝ) = 0 then 0 else 1), fin 0) := by
  have hz : 0 < B / (X * Y) := by positivity
  have hX' : (0 : ℝ) < X := hX
  have hY' : (0 : ℝ) < Y := hY
  have hB' : (0 : ℝ) < B := hB
  unfold p_jac_ij
  by_cases h0 : xi = 0 ∨ yj = 0
  · have h1 : (xi * yj : ℝ) = 0 := by rcases h0 with h | h <;> simp [h]
    rw [if_pos (by rcases h0 with h | h <;> simp [h]), if_pos h1]
    rfl
  · push Not at h0
    have hx' : (0 : ℝ) < xi := NNReal.coe_pos.2 (pos_iff_ne_zero.2 h0.1)
    have hy' : (0 : ℝ) < yj := NNReal.coe_pos.2 (pos_iff_ne_zero.2 h0.2)
    have e1 : ((fin (X : ℝ)).isZero || (fin (Y : ℝ)).isZero || (fin ((B / (X * Y) : ℝ≥0) : ℝ)).isZero
        || (fin (xi : ℝ)).isZero || (fin (yj : ℝ)).isZero || (1 : XR).isZero) = false := by
      have a1 : (fin (X : ℝ)).isZero = false := by simpa using hX.ne'
      have a2 : (fin (Y : ℝ)).isZero = false := by simpa using hY.ne'
      have a3 : (fin ((B / (X * Y) : ℝ≥0) : ℝ)).isZero = false := by
        rw [isZero_fin, decide_eq_false_iff_not]; exact_mod_cast hz.ne'
      have a4 : (fin (xi : ℝ)).isZero = false := by simpa using h0.1
      have a5 : (fin (yj : ℝ)).isZero = false := by simpa using h0.2
      have a6 : (1 : XR).isZero = false := by simp [one_def]
      rw [a1, a2, a3, a4, a5, a6]; rfl
    have hz' : ((B / (X * Y) : ℝ≥0) : ℝ) = B / (X * Y) := by push_cast; rfl
    have eb : (X : ℝ) * Y * (B / (X * Y)) = B := by field_simp
    have ha : (xi * yj : ℝ) ≠ 0 := (mul_pos hx' hy').ne'
    have pm : ∀ r : ℝ, 0 < r → pinf * fin r = pinf := by
      intro r hr
      show XR.mul pinf (fin r) = pinf
      simp [XR.mul, signedInf, hr]
    rw [if_neg (by rw [e1]; simp)]
    simp only [one_def, hz', fin_mul_fin, mul_one, eb,
      pm _ (mul_pos hx' hy'), pm _ hB', neg_pinf, XR.expm1, neg_fin, neg_neg, ltb_fin_fin]
    rw [if_neg (by norm_num), if_neg ha]
    rfl

section
variable {n M : ℕ} {d : ℝ≥0∞} {x y : ℕ → ℝ≥0} {groups : ℕ → ℕ} {adj : Mat} {s : Bool}
  {A : Finset (ℕ × ℕ)}

/-- Every coarse link contains a possible link between vertices with non-zero properties. -/
def Supported (n : ℕ) (s : Bool) (x y : ℕ → ℝ≥0) (groups : ℕ → ℕ) (A : Finset (ℕ × ℕ)) : Prop :=
  ∀ k ∈ A, ∃ e ∈ Law.pairs n s, (groups e.1, groups e.2) = k ∧ 0 < x e.1 ∧ 0 < y e.2

theorem Supported.feasible (h : Supported n s x y groups A) (hd : d ≠ 0) :
    Feasible n s (pr d x y) groups A := by
  intro k hk
  obtain ⟨e, h1, h2, h3⟩ := h k hk
  exact ⟨e, h1, h2, pr_pos.2 ⟨hd, h3⟩⟩

/-- The sums belonging to a coarse link are positive. -/
theorem Supported.sums (h : Supported n s x y groups A) {k : ℕ × ℕ} (hk : k ∈ A) :
    0 < groupSum n groups x k.1 ∧ 0 < groupSum n groups y k.2 ∧
      0 < blockSum n s groups x y k := by
  obtain ⟨e, he, hek, hxe, hye⟩ := h k hk
  have hm := Law.mem_pairs.1 (show (e.1, e.2) ∈ _ from he)
  subst hek
  refine ⟨groupSum_pos hm.1 hxe, groupSum_pos hm.2.1 hye, ?_⟩
  unfold blockSum
  exact lt_of_lt_of_le (mul_pos hxe hye) (Finset.single_le_sum
    (f := fun e : ℕ × ℕ => x e.1 * y e.2) (fun _ _ => zero_le) (Finset.mem_filter.2 ⟨he, rfl⟩))

/-- Product of the properties of a pair. -/
def wt (x y : ℕ → ℝ≥0) (e : ℕ × ℕ) : ℝ := x e.1 * y e.2

/-- Sum over its block. -/
def bl (n : ℕ) (s : Bool) (groups : ℕ → ℕ) (x y : ℕ → ℝ≥0) (e : ℕ × ℕ) : ℝ :=
  blockSum n s groups x y (groups e.1, groups e.2)

theorem condPJ_fin (hS : Supported n s x y groups A) {t : ℝ} (ht : 0 ≤ t) {i j : ℕ}
    (hk : (groups i, groups j) ∈ A) :
    condPJ (mk n M d x y groups adj s) (fin t) i j
      = .ok (fin (codeF (wt x y (i, j)) (bl n s groups x y (i, j)) t),
          fin (codeJ (wt x y (i, j)) (bl n s groups x y (i, j)) t)) := by
  obtain ⟨hX, hY, hB⟩ := hS.sums hk
  unfold condPJ
  have g1 : (mk n M d x y groups adj s).groups = groups := rfl
  rw [g1, zAgg_eq _ _ hX hY]
  show Except.ok _ = _
  rw [aggOut_eq, aggIn_eq]
  exact congrArg _ (p_jac_ij_fin ht hX hY hB)

theorem condPJ_pinf (hS : Supported n s x y groups A) {i j : ℕ}
    (hk : (groups i, groups j) ∈ A) :
    condPJ (mk n M d x y groups adj s) pinf i j
      = .ok (fin (if wt x y (i, j) = 0 then 0 else 1), fin 0) := by
  obtain ⟨hX, hY, hB⟩ := hS.sums hk
  unfold condPJ
  have g1 : (mk n M d x y groups adj s).groups = groups := rfl
  rw [g1, zAgg_eq _ _ hX hY]
  show Except.ok _ = _
  rw [aggOut_eq, aggIn_eq]
  exact congrArg _ (p_jac_ij_pinf hX hY hB)

/-- The possible links within the coarse links. -/
def inside (n : ℕ) (s : Bool) (groups : ℕ → ℕ) (A : Finset (ℕ × ℕ)) : Finset (ℕ × ℕ) :=
  (Law.pairs n s).filter (fun e => (groups e.1, groups e.2) ∈ A)

theorem f_jac_sum (hA : Stores M adj A) (hg : ∀ i < n, groups i < M) {t : XR}
    {f j : ℕ × ℕ → ℝ} (h : ∀ i k, (groups i, groups k) ∈ A →
      condPJ (mk n M d x y groups adj s) t i k = .ok (fin (f (i, k)), fin (j (i, k)))) :
    exp_edges_f_jac (mk n M d x y groups adj s) t
      = .ok (fin (∑ e ∈ inside n s groups A, f e), fin (∑ e ∈ inside n s groups A, j e)) := by
  unfold exp_edges_f_jac
  have hn : (mk n M d x y groups adj s).n = n := rfl
  let R : ℝ × ℝ → XR × XR := fun p => (fin p.1, fin p.2)
  let g : ℕ × ℕ → ℝ × ℝ := fun e => if (groups e.1, groups e.2) ∈ A then (f e, j e) else 0
  have h0 : ((0, 0) : XR × XR) = R 0 := rfl
  rw [h0, hn, foldlM_rep R _ (fun i => ∑ k ∈ Finset.range n,
      if admissible i k s then g (i, k) else 0) n, zero_add, ← sum_pairs n s g]
  · have : ∑ e ∈ Law.pairs n s, g e
        = (∑ e ∈ inside n s groups A, f e, ∑ e ∈ inside n s groups A, j e) := by
      rw [inside, ← Finset.sum_filter (s := Law.pairs n s)]
      refine Prod.ext ?_ ?_
      · rw [Prod.fst_sum]
      · rw [Prod.snd_sum]
    rw [this]
  intro i hi a
  refine foldlM_rep R _ _ n (fun k hk a => ?_) a
  have hr : ((mk n M d x y groups adj s).adj.row ((mk n M d x y groups adj s).groups i)).contains
      ((mk n M d x y groups adj s).groups k) = decide ((groups i, groups k) ∈ A) :=
    contains_row hA hg hi
  have hs : (mk n M d x y groups adj s).selfloops = s := rfl
  rw [hr, hs]
  by_cases hk : (groups i, groups k) ∈ A
  · by_cases hadm : admissible i k s = true
    · simp only [hk, hadm, decide_true, Bool.and_true, if_true, h i k hk, g]
      rfl
    · simp only [hadm, Bool.and_false, if_false, add_zero, Bool.false_eq_true]
  · simp only [hk, decide_false, Bool.false_and, Bool.false_eq_true, if_false, g,
      ite_self, add_zero]

theorem f_jac_fin (hA : Stores M adj A) (hg : ∀ i < n, groups i < M)
    (hS : Supported n s x y groups A) {t : ℝ} (ht : 0 ≤ t) :
    exp_edges_f_jac (mk n M d x y groups adj s) (fin t)
      = .ok (fin (∑ e ∈ inside n s groups A, codeF (wt x y e) (bl n s groups x y e) t),
          fin (∑ e ∈ inside n s groups A, codeJ (wt x y e) (bl n s groups x y e) t)) :=
  f_jac_sum hA hg (f := fun e => codeF (wt x y e) (bl n s groups x y e) t)
    (j := fun e => codeJ (wt x y e) (bl n s groups x y e) t)
    (fun _ _ hk => condPJ_fin hS ht hk)

theorem f_jac_pinf (hA : Stores M adj A) (hg : ∀ i < n, groups i < M)
    (hS : Supported n s x y groups A) :
    exp_edges_f_jac (mk n M d x y groups adj s) pinf
      = .ok (fin (∑ e ∈ inside n s groups A, if wt x y e = 0 then 0 else 1), fin 0) := by
  have := f_jac_sum (d := d) (s := s) hA hg (f := fun e => if wt x y e = 0 then (0 : ℝ) else 1)
    (j := fun _ => 0) (fun _ _ hk => condPJ_pinf hS hk)
  rwa [Finset.sum_const_zero] at this

/-! ## The conditional mean -/

theorem coarseProb_ne_zero (hA : Stores M adj A) (hg : ∀ i < n, groups i < M)
    (hS : Supported n s x y groups A) (hd : d ≠ 0) (hd' : d ≠ ⊤) :
    Law.coarseProb (Law.pairs n s) (pr d x y) groups A ≠ 0 := by
  rw [Law.coarseProb_eq (T := Finset.range M ×ˢ Finset.range M) _ (key_in hg) (coarse_in hA)]
  refine Finset.prod_ne_zero_iff.2 (fun k _ => ?_)
  unfold Law.linkFactor
  rw [noneOf_block]
  have hne : d * blockSum n s groups x y k ≠ ⊤ := ENNReal.mul_ne_top hd' ENNReal.coe_ne_top
  split
  · next hk =>
    rw [sub_sub_cancel]
    refine (invProb_pos (mul_ne_zero hd ?_)).ne'
    have := (hS.sums hk).2.2.ne'
    exact_mod_cast this
  · rw [one_sub_invProb hne]
    exact (Real.exp_pos _).ne'

/-- Mean number of links given the coarse graph, as a function of the parameter. -/
def meanEdges (n : ℕ) (s : Bool) (x y : ℕ → ℝ≥0) (groups : ℕ → ℕ) (A : Finset (ℕ × ℕ)) (t : ℝ) :
    ℝ :=
  Law.condMean (Law.pairs n s) (pr (ENNReal.ofReal t) x y) groups A (fun G => (G.card : ℝ))

theorem condLink_eq {t : ℝ} (ht : 0 < t) {e : ℕ × ℕ}
    (hk : (groups e.1, groups e.2) ∈ A) :
    Law.condLink (Law.pairs n s) (pr (ENNReal.ofReal t) x y) groups A e
      = linkF (wt x y e) (bl n s groups x y e) t := by
  have h1 : ∀ r : ℝ≥0, invProb (ENNReal.ofReal t * r) = 1 - Real.exp (-(t * r)) := by
    intro r
    rw [invProb_of_ne_top (ENNReal.mul_ne_top ENNReal.ofReal_ne_top ENNReal.coe_ne_top),
      ENNReal.toReal_mul, ENNReal.toReal_ofReal ht.le]
    rfl
  unfold Law.condLink
  rw [if_pos hk, noneOf_block, sub_sub_cancel, pr_eq, mul_assoc, ← ENNReal.coe_mul, h1, h1]
  unfold linkF
  split
  · next h0 =>
    have : ((x e.1 * y e.2 : ℝ≥0) : ℝ) = 0 := by rw [← h0]; push_cast; rfl
    rw [this]; simp
  · rw [ratio_of_ne ht.ne']
    rfl

theorem meanEdges_eq (hA : Stores M adj A) (hg : ∀ i < n, groups i < M)
    (hS : Supported n s x y groups A) {t : ℝ} (ht : 0 < t) :
    meanEdges n s x y groups A t
      = ∑ e ∈ inside n s groups A, linkF (wt x y e) (bl n s groups x y e) t := by
  unfold meanEdges
  rw [Law.condMean_card (key_in hg) (coarse_in hA)
    (coarseProb_ne_zero hA hg hS (by simpa using ht) ENNReal.ofReal_ne_top), inside,
    Finset.sum_filter]
  refine Finset.sum_congr rfl (fun e _ => ?_)
  split
  · next hk => exact condLink_eq ht hk
  · next hk => unfold Law.condLink; rw [if_neg hk]

/-! ## Sums over the coarse links -/

theorem wt_nonneg (e : ℕ × ℕ) : 0 ≤ wt x y e := by unfold wt; positivity

theorem wt_ne_zero {e : ℕ × ℕ} : wt x y e ≠ 0 ↔ 0 < x e.1 ∧ 0 < y e.2 := by
  unfold wt
  rw [mul_ne_zero_iff, pos_iff_ne_zero, pos_iff_ne_zero]
  simp

theorem wt_le_bl {e : ℕ × ℕ} (he : e ∈ inside n s groups A) :
    wt x y e ≤ bl n s groups x y e := by
  have : x e.1 * y e.2 ≤ blockSum n s groups x y (groups e.1, groups e.2) := by
    unfold blockSum
    exact Finset.single_le_sum (f := fun e : ℕ × ℕ => x e.1 * y e.2) (fun _ _ => zero_le)
      (Finset.mem_filter.2 ⟨(Finset.mem_filter.1 he).1, rfl⟩)
  unfold wt bl
  exact_mod_cast this

/-- The fractions `a / b` add up to one for each coarse link. -/
theorem sum_fractions (hS : Supported n s x y groups A) :
    ∑ e ∈ inside n s groups A, wt x y e / bl n s groups x y e = A.card := by
  rw [← Finset.sum_fiberwise_of_maps_to (s := inside n s groups A) (t := A)
    (g := fun e => (groups e.1, groups e.2)) (fun e he => (Finset.mem_filter.1 he).2)]
  rw [Finset.card_eq_sum_ones, Nat.cast_sum]
  refine Finset.sum_congr rfl (fun k hk => ?_)
  have hB : (0 : ℝ) < blockSum n s groups x y k := (hS.sums hk).2.2
  have h1 : ∀ e ∈ (inside n s groups A).filter (fun e => (groups e.1, groups e.2) = k),
      wt x y e / bl n s groups x y e = wt x y e / blockSum n s groups x y k := by
    intro e he
    unfold bl
    rw [(Finset.mem_filter.1 he).2]
  rw [Finset.sum_congr rfl h1, ← Finset.sum_div, Nat.cast_one, div_eq_one_iff_eq hB.ne']
  have h2 : (inside n s groups A).filter (fun e => (groups e.1, groups e.2) = k)
      = Law.block (Law.pairs n s) groups k := by
    ext e
    simp only [inside, Law.block, Finset.mem_filter]
    constructor
    · rintro ⟨⟨h1, _⟩, h3⟩; exact ⟨h1, h3⟩
    · rintro ⟨h1, h3⟩; exact ⟨⟨h1, h3 ▸ hk⟩, h3⟩
  rw [h2, blockSum]
  push_cast
  rfl

/-- The possible links within the coarse links between vertices with non-zero properties. -/
def linkable (n : ℕ) (s : Bool) (x y : ℕ → ℝ≥0) (groups : ℕ → ℕ) (A : Finset (ℕ × ℕ)) :
    Finset (ℕ × ℕ) :=
  (Law.pairs n s).filter (fun e => (groups e.1, groups e.2) ∈ A ∧ 0 < x e.1 ∧ 0 < y e.2)

theorem sum_linkable (f : ℕ × ℕ → ℝ) :
    ∑ e ∈ inside n s groups A, (if wt x y e = 0 then 0 else f e)
      = ∑ e ∈ linkable n s x y groups A, f e := by
  have h : linkable n s x y groups A = (inside n s groups A).filter (fun e => ¬ wt x y e = 0) := by
    ext e
    simp only [linkable, inside, Finset.mem_filter, ← wt_ne_zero (x := x) (y := y), and_assoc]
  rw [h, Finset.sum_filter]
  exact Finset.sum_congr rfl (fun e _ => by split <;> simp_all)

theorem linkable_facts {e : ℕ × ℕ} (he : e ∈ linkable n s x y groups A) :
    0 < wt x y e ∧ wt x y e ≤ bl n s groups x y e := by
  obtain ⟨h1, h2, h3⟩ := Finset.mem_filter.1 he
  exact ⟨(wt_nonneg e).lt_of_ne (wt_ne_zero.2 h3).symm,
    wt_le_bl (Finset.mem_filter.2 ⟨h1, h2⟩)⟩

theorem sum_fractions' (hS : Supported n s x y groups A) :
    ∑ e ∈ linkable n s x y groups A, wt x y e / bl n s groups x y e = A.card := by
  rw [← sum_fractions hS, ← sum_linkable]
  refine Finset.sum_congr rfl (fun e _ => ?_)
  split
  · next h => rw [h, zero_div]
  · rfl

/-! ## The expected number of edges for every parameter -/

/-- Total of the ratios: the mean number of links, extended to the parameter `0`. -/
def totalF (n : ℕ) (s : Bool) (x y : ℕ → ℝ≥0) (groups : ℕ → ℕ) (A : Finset (ℕ × ℕ)) (t : ℝ) : ℝ :=
  ∑ e ∈ linkable n s x y groups A, ratio (wt x y e) (bl n s groups x y e) t

theorem meanEdges_total (hA : Stores M adj A) (hg : ∀ i < n, groups i < M)
    (hS : Supported n s x y groups A) {t : ℝ} (ht : 0 < t) :
    meanEdges n s x y groups A t = totalF n s x y groups A t := by
  rw [meanEdges_eq hA hg hS ht]
  exact sum_linkable (fun e => ratio (wt x y e) (bl n s groups x y e) t)

theorem totalF_zero (hS : Supported n s x y groups A) :
    totalF n s x y groups A 0 = A.card := by
  rw [← sum_fractions' hS]
  exact Finset.sum_congr rfl (fun e _ => ratio_zero)

theorem condP_zero (hS : Supported n s x y groups A) {i j : ℕ} (hk : (groups i, groups j) ∈ A) :
    condP (mk n M d x y groups adj s) (fin 0) i j
      = .ok (fin (wt x y (i, j) / bl n s groups x y (i, j))) := by
  obtain ⟨hX, hY, hB⟩ := hS.sums hk
  unfold condP
  have g1 : (mk n M d x y groups adj s).groups = groups := rfl
  rw [g1, zAgg_eq _ _ hX hY]
  show Except.ok _ = _
  rw [aggOut_eq, aggIn_eq]
  congr 1
  have hX' : (0 : ℝ) < groupSum n groups x (groups i) := hX
  have hY' : (0 : ℝ) < groupSum n groups y (groups j) := hY
  have hB' : (0 : ℝ) < blockSum n s groups x y (groups i, groups j) := hB
  have hz : (0 : ℝ) < blockSum n s groups x y (groups i, groups j)
    / (groupSum n groups x (groups i) * groupSum n groups y (groups j)) := by positivity
  show cond_p_ij (fin 0) (fin (x i)) (fin (y j)) 1 _ _ _ = _
  unfold cond_p_ij
  by_cases h0 : x i = 0 ∨ y j = 0
  · have h1 : wt x y (i, j) = 0 := by unfold wt; rcases h0 with h | h <;> simp [h]
    rw [if_pos (by rcases h0 with h | h <;> simp [h]), h1, zero_div]
    rfl
  · push Not at h0
    rw [if_neg, if_pos (by simp)]
    · push_cast
      rw [one_def, fin_div_fin _ _ hX'.ne', fin_div_fin _ _ hY'.ne', fin_div_fin _ _ hz.ne',
        fin_mul_fin, fin_mul_fin, fin_inj]
      unfold wt bl
      field_simp
    · push_cast
      simp [h0.1, h0.2, one_def, hX'.ne', hY'.ne', hz.ne']

theorem edges_zero (hA : Stores M adj A) (hg : ∀ i < n, groups i < M)
    (hS : Supported n s x y groups A) :
    exp_edges (mk n M d x y groups adj s) (fin 0) = .ok (fin A.card) := by
  rw [← sum_fractions hS, inside, Finset.sum_filter, sum_pairs]
  unfold exp_edges
  have h0 : (0 : XR) = fin 0 := rfl
  have hn : (mk n M d x y groups adj s).n = n := rfl
  rw [h0, hn, foldlM_rep fin _ (fun i => ∑ j ∈ Finset.range n,
      if admissible i j s then
        if (groups i, groups j) ∈ A then wt x y (i, j) / bl n s groups x y (i, j) else 0
      else 0) n, zero_add]
  intro i hi a
  refine foldlM_rep fin _ _ n (fun j hj a => ?_) a
  have hr : ((mk n M d x y groups adj s).adj.row ((mk n M d x y groups adj s).groups i)).contains
      ((mk n M d x y groups adj s).groups j) = decide ((groups i, groups j) ∈ A) :=
    contains_row hA hg hi
  have hs : (mk n M d x y groups adj s).selfloops = s := rfl
  rw [hr, hs]
  by_cases hk : (groups i, groups j) ∈ A
  · by_cases hadm : admissible i j s = true
    · simp only [hk, hadm, decide_true, Bool.and_true, if_true, condP_zero hS hk]
      rfl
    · simp only [hadm, Bool.and_false, if_false, add_zero, Bool.false_eq_true]
  · simp only [hk, decide_false, Bool.false_and, Bool.false_eq_true, if_false,
      ite_self, add_zero]

theorem edges_fin (hA : Stores M adj A) (hg : ∀ i < n, groups i < M)
    (hS : Supported n s x y groups A) {t : ℝ} (ht : 0 ≤ t) :
    expected_num_edges (mk n M (ENNReal.ofReal t) x y groups adj s)
      = .ok (fin (totalF n s x y groups A t)) := by
  rcases ht.eq_or_lt with rfl | ht
  · rw [totalF_zero hS]
    have h0 : ofENN (ENNReal.ofReal 0) = fin 0 := by simp
    show exp_edges _ (ofENN (ENNReal.ofReal 0)) = _
    rw [h0]
    exact edges_zero hA hg hS
  · rw [C41_edges hA hg (coarseProb_ne_zero hA hg hS (by simpa using ht) ENNReal.ofReal_ne_top),
      ← meanEdges_total hA hg hS ht]
    rfl

theorem edges_top (hA : Stores M adj A) (hg : ∀ i < n, groups i < M)
    (hS : Supported n s x y groups A) :
    expected_num_edges (mk n M ⊤ x y groups adj s)
      = .ok (fin (linkable n s x y groups A).card) := by
  show exp_edges _ (ofENN ⊤) = _
  rw [exp_edges_eq hA hg (hS.feasible ENNReal.top_ne_zero)]
  congr 2
  have := sum_pairs n s (fun e => cq n ⊤ x y groups s A e.1 e.2)
  rw [← this, ← mul_one ((linkable n s x y groups A).card : ℝ), ← nsmul_eq_mul,
    ← Finset.sum_const, ← sum_linkable, inside, Finset.sum_filter]
  refine Finset.sum_congr rfl (fun e _ => ?_)
  split
  · next hk =>
    have hB := (hS.sums hk).2.2
    unfold cq Law.condLink
    have htop : (⊤ * (blockSum n s groups x y (groups e.1, groups e.2) : ℝ≥0) : ℝ≥0∞) = ⊤ :=
      ENNReal.top_mul (by simpa using hB.ne')
    rw [if_pos hk, noneOf_block, sub_sub_cancel, pr_eq, htop, invProb_top, div_one]
    split
    · next h =>
      have : x e.1 = 0 ∨ y e.2 = 0 := by
        unfold wt at h
        simpa using h
      rcases this with h | h <;> simp [h, invProb_zero]
    · next h =>
      have h1 := wt_ne_zero.1 h
      rw [ENNReal.top_mul (by simpa using h1.1.ne'), ENNReal.top_mul (by simpa using h1.2.ne'),
        invProb_top]
  · next hk => exact cq_of_notMem hk

/-! ## The objective of the code against the mean -/

theorem codeF_near {a b t : ℝ} (ha : 0 < a) (hab : a ≤ b) (ht : 0 ≤ t) :
    |codeF a b t - ratio a b t| ≤ 2 / 10 ^ 12 * (a / b) := by
  have hb : 0 < b := ha.trans_le hab
  unfold codeF
  rw [if_neg ha.ne']
  split
  · next hc =>
    have h1 := ratio_ge ha hab ht
    have h2 := ratio_le_exp ha hab ht
    rw [abs_sub_comm, abs_of_nonneg (by linarith)]
    have he : Real.exp (t * b) ≤ 1 + 2 / 10 ^ 12 := by
      have h3 : 1 - 1 / 10 ^ 12 < Real.exp (-(t * b)) := by linarith
      have h4 : Real.exp (t * b) * Real.exp (-(t * b)) = 1 := by rw [← Real.exp_add]; simp
      have h5 := Real.exp_pos (t * b)
      have h6 : Real.exp (t * b) * (1 - 1 / 10 ^ 12) ≤ 1 :=
        (mul_le_mul_of_nonneg_left h3.le h5.le).trans h4.le
      by_contra hcon
      push Not at hcon
      have : (1 + 2 / 10 ^ 12 : ℝ) * (1 - 1 / 10 ^ 12) < Real.exp (t * b) * (1 - 1 / 10 ^ 12) :=
        mul_lt_mul_of_pos_right hcon (by norm_num)
      norm_num at this h6
      linarith
    have h7 : a / b * Real.exp (t * b) ≤ a / b * (1 + 2 / 10 ^ 12) :=
      mul_le_mul_of_nonneg_left he (by positivity)
    linarith
  · rw [sub_self, abs_zero]
    positivity

theorem code_sum (t : ℝ) : ∑ e ∈ inside n s groups A, codeF (wt x y e) (bl n s groups x y e) t
    = ∑ e ∈ linkable n s x y groups A, codeF (wt x y e) (bl n s groups x y e) t := by
  rw [← sum_linkable]
  refine Finset.sum_congr rfl (fun e _ => ?_)
  split
  · next h => unfold codeF; rw [if_pos h]
  · rfl

theorem codeJ_sum (t : ℝ) : ∑ e ∈ inside n s groups A, codeJ (wt x y e) (bl n s groups x y e) t
    = ∑ e ∈ linkable n s x y groups A, codeJ (wt x y e) (bl n s groups x y e) t := by
  rw [← sum_linkable]
  refine Finset.sum_congr rfl (fun e _ => ?_)
  split
  · next h => unfold codeJ; rw [if_pos h]
  · rfl

theorem code_near (hS : Supported n s x y groups A) {t : ℝ} (ht : 0 ≤ t) :
    |∑ e ∈ inside n s groups A, codeF (wt x y e) (bl n s groups x y e) t
        - totalF n s x y groups A t| ≤ 2 / 10 ^ 12 * A.card := by
  rw [code_sum, totalF, ← Finset.sum_sub_distrib, ← sum_fractions' hS, Finset.mul_sum]
  refine (Finset.abs_sum_le_sum_abs _ _).trans (Finset.sum_le_sum (fun e he => ?_))
  obtain ⟨h1, h2⟩ := linkable_facts he
  exact codeF_near h1 h2 ht

theorem codeJ_nonneg {a b t : ℝ} (ha : 0 ≤ a) (hab : a ≤ b) (ht : 0 ≤ t) : 0 ≤ codeJ a b t := by
  unfold codeJ
  split
  · exact le_refl _
  · next h0 =>
    have ha' : 0 < a := ha.lt_of_ne (Ne.symm h0)
    split
    · exact ratio'_nonneg ha' hab (le_refl _)
    · exact ratio'_nonneg ha' hab ht

/-! ## Whether the objective raises does not depend on the parameter -/

theorem foldlM_isOk {σ σ' ι ε ε' : Type} {f : σ → ι → Except ε σ} {f' : σ' → ι → Except ε' σ'}
    (h : ∀ s s' i, (f s i).isOk = (f' s' i).isOk) (l : List ι) (s : σ) (s' : σ') :
    (l.foldlM f s).isOk = (l.foldlM f' s').isOk := by
  induction l generalizing s s' with
  | nil => rfl
  | cons a l ih =>
    rw [List.foldlM_cons, List.foldlM_cons]
    have := h s s' a
    cases h1 : f s a with
    | error e =>
      cases h2 : f' s' a with
      | error e' => rfl
      | ok v' => rw [h1, h2] at this; cases this
    | ok v =>
      cases h2 : f' s' a with
      | error e' => rw [h1, h2] at this; cases this
      | ok v' => exact ih v v'

theorem raises_iff (o : Obj) (t t' : XR) :
    (exp_edges_f_jac o t).isOk = (exp_edges_f_jac o t').isOk := by
  unfold exp_edges_f_jac
  refine foldlM_isOk (fun s s' i => foldlM_isOk (fun s s' j => ?_) _ _ _) _ _ _
  split
  · unfold condPJ
    cases o.zAgg (o.groups i) (o.groups j) <;> rfl
  · rfl

end

end

end Verif.Cond
