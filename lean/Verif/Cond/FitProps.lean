import Verif.Cond.FitLemmas
import Verif.Solver.Total

/-!
# C64, C65: the density fit of the conditional model

`mk n M d x y groups adj s` is the model with finite non-negative properties `x`, `y`; `Stores M adj
A` says that the compressed matrix holds the coarse graph `A`; `Supported` that every coarse link
contains a possible link between vertices with non-zero properties.  `meanEdges … t` is the mean
number of links of the law of the scale-invariant model with parameter `t` conditioned on its
coarse graph being `A`.
-/

namespace Verif.Cond

noncomputable section

open scoped ENNReal NNReal
open XR Spec Filter Topology

section
variable {n M : ℕ} {d : ℝ≥0∞} {x y : ℕ → ℝ≥0} {groups : ℕ → ℕ} {adj : Mat} {s : Bool}
  {A : Finset (ℕ × ℕ)}

/-! ## C64 -/

theorem cut_of_prob {t : ℝ} (ht : 0 ≤ t) {k : ℕ × ℕ}
    (h : 1 / 10 ^ 12 ≤ 1 - ∏ e ∈ Law.block (Law.pairs n s) groups k,
      (1 - pr (ENNReal.ofReal t) x y e)) :
    ¬ 1 - Real.exp (-(t * blockSum n s groups x y k)) < 1 / 10 ^ 12 := by
  rw [noneOf_block, sub_sub_cancel,
    invProb_of_ne_top (ENNReal.mul_ne_top ENNReal.ofReal_ne_top ENNReal.coe_ne_top),
    ENNReal.toReal_mul, ENNReal.toReal_ofReal ht] at h
  exact not_lt.2 h

theorem totalF_hasDerivAt {t : ℝ} (ht : 0 ≤ t) :
    HasDerivAt (totalF n s x y groups A)
      (∑ e ∈ linkable n s x y groups A, ratio' (wt x y e) (bl n s groups x y e) t) t := by
  have := HasDerivAt.fun_sum (u := linkable n s x y groups A)
    (A := fun e => ratio (wt x y e) (bl n s groups x y e))
    (A' := fun e => ratio' (wt x y e) (bl n s groups x y e) t) (x := t) (fun e he => by
      obtain ⟨h1, h2⟩ := linkable_facts he
      exact ratio_hasDeriv h1 h2 ht)
  exact this

/-- **C64**, partial: for a positive parameter at which every coarse link has probability at least
`1e-12`, the objective handed to the solver is the mean number of links of the conditional law, and
the second component is the derivative of that mean with respect to the parameter.

Missing: parameters at which some coarse link has a smaller probability, for which the claim is
false (`C64_violated`); `C64_error` bounds the difference. -/
theorem C64_objective_partial (hA : Stores M adj A) (hg : ∀ i < n, groups i < M)
    (hS : Supported n s x y groups A) {t : ℝ} (ht : 0 < t)
    (hcut : ∀ k ∈ A, 1 / 10 ^ 12 ≤ 1 - ∏ e ∈ Law.block (Law.pairs n s) groups k,
      (1 - pr (ENNReal.ofReal t) x y e)) :
    ∃ f j, exp_edges_f_jac (mk n M d x y groups adj s) (fin t) = .ok (fin f, fin j) ∧
      f = meanEdges n s x y groups A t ∧ HasDerivAt (meanEdges n s x y groups A) j t := by
  refine ⟨_, _, f_jac_fin hA hg hS ht.le, ?_, ?_⟩
  · rw [meanEdges_total hA hg hS ht, totalF, code_sum]
    refine Finset.sum_congr rfl (fun e he => ?_)
    obtain ⟨h1, -⟩ := linkable_facts he
    rw [codeF, if_neg h1.ne', if_neg]
    exact cut_of_prob ht.le (hcut _ (Finset.mem_filter.1 he).2.1)
  · have h := totalF_hasDerivAt (n := n) (s := s) (x := x) (y := y) (groups := groups) (A := A) ht.le
    have he : meanEdges n s x y groups A =ᶠ[𝓝 t] totalF n s x y groups A := by
      filter_upwards [lt_mem_nhds ht] with u hu
      exact meanEdges_total hA hg hS hu
    refine (h.congr_of_eventuallyEq he).congr_deriv ?_
    rw [codeJ_sum]
    refine Finset.sum_congr rfl (fun e he => ?_)
    obtain ⟨h1, -⟩ := linkable_facts he
    rw [codeJ, if_neg h1.ne', if_neg]
    exact cut_of_prob ht.le (hcut _ (Finset.mem_filter.1 he).2.1)

/-- **C64**, at the parameter zero: objective and expected number of edges are the number of coarse
links, which is the limit of the conditional mean, and the second component is the slope of the
mean there. -/
theorem C64_zero (hA : Stores M adj A) (hg : ∀ i < n, groups i < M)
    (hS : Supported n s x y groups A) :
    ∃ j, exp_edges_f_jac (mk n M d x y groups adj s) (fin 0) = .ok (fin A.card, fin j) ∧
      expected_num_edges (mk n M 0 x y groups adj s) = .ok (fin A.card) ∧
      Tendsto (meanEdges n s x y groups A) (𝓝[>] 0) (𝓝 A.card) ∧
      Tendsto (fun t => (meanEdges n s x y groups A t - A.card) / t) (𝓝[>] 0) (𝓝 j) := by
  have h := totalF_hasDerivAt (n := n) (s := s) (x := x) (y := y) (groups := groups) (A := A)
    (le_refl 0)
  have hev : ∀ᶠ u in 𝓝[>] (0 : ℝ), totalF n s x y groups A u = meanEdges n s x y groups A u := by
    filter_upwards [self_mem_nhdsWithin] with u hu
    exact (meanEdges_total hA hg hS hu).symm
  refine ⟨∑ e ∈ linkable n s x y groups A, ratio' (wt x y e) (bl n s groups x y e) 0, ?_, ?_, ?_,
    ?_⟩
  · rw [f_jac_fin hA hg hS (le_refl 0), code_sum, codeJ_sum, ← sum_fractions' hS]
    have e1 : ∑ e ∈ linkable n s x y groups A, codeF (wt x y e) (bl n s groups x y e) 0
        = ∑ e ∈ linkable n s x y groups A, wt x y e / bl n s groups x y e :=
      Finset.sum_congr rfl (fun e he => by
        rw [codeF, if_neg (linkable_facts he).1.ne', if_pos (by simp)])
    have e2 : ∑ e ∈ linkable n s x y groups A, codeJ (wt x y e) (bl n s groups x y e) 0
        = ∑ e ∈ linkable n s x y groups A, ratio' (wt x y e) (bl n s groups x y e) 0 :=
      Finset.sum_congr rfl (fun e he => by
        rw [codeJ, if_neg (linkable_facts he).1.ne', if_pos (by simp)])
    rw [e1, e2]
  · have := edges_fin hA hg hS (le_refl 0)
    rwa [ENNReal.ofReal_zero, totalF_zero hS] at this
  · have hc : Tendsto (totalF n s x y groups A) (𝓝[>] 0) (𝓝 (totalF n s x y groups A 0)) :=
      h.continuousAt.tendsto.mono_left nhdsWithin_le_nhds
    rw [totalF_zero hS] at hc
    exact hc.congr' hev
  · have hs := (hasDerivAt_iff_tendsto_slope.1 h).mono_left
      (nhdsWithin_mono (0 : ℝ) (show Set.Ioi (0 : ℝ) ⊆ {0}ᶜ from fun u hu => ne_of_gt hu))
    refine hs.congr' ?_
    filter_upwards [hev] with u hu
    rw [slope_def_field, hu, totalF_zero hS, sub_zero]

/-- **C64**, at the parameter `inf`: objective and expected number of edges are the number of
possible links within the coarse links between vertices with non-zero properties. -/
theorem C64_infinite (hA : Stores M adj A) (hg : ∀ i < n, groups i < M)
    (hS : Supported n s x y groups A) :
    exp_edges_f_jac (mk n M d x y groups adj s) pinf
      = .ok (fin ((Law.pairs n s).filter (fun e => (groups e.1, groups e.2) ∈ A ∧ 0 < x e.1 ∧
          0 < y e.2)).card, fin 0) ∧
    expected_num_edges (mk n M ⊤ x y groups adj s)
      = .ok (fin ((Law.pairs n s).filter (fun e => (groups e.1, groups e.2) ∈ A ∧ 0 < x e.1 ∧
          0 < y e.2)).card) := by
  refine ⟨?_, edges_top hA hg hS⟩
  rw [f_jac_pinf hA hg hS, sum_linkable (fun _ => 1)]
  simp [linkable]

/-- **C64**, error bound: for every positive parameter the objective differs from the mean number
of links by at most `2e-12` per coarse link. -/
theorem C64_error (hA : Stores M adj A) (hg : ∀ i < n, groups i < M)
    (hS : Supported n s x y groups A) {t : ℝ} (ht : 0 < t) :
    ∃ f j, exp_edges_f_jac (mk n M d x y groups adj s) (fin t) = .ok (fin f, fin j) ∧
      |f - meanEdges n s x y groups A t| ≤ 2 / 10 ^ 12 * A.card ∧ 0 ≤ j := by
  refine ⟨_, _, f_jac_fin hA hg hS ht.le, ?_, ?_⟩
  · rw [meanEdges_total hA hg hS ht]
    exact code_near hS ht.le
  · exact Finset.sum_nonneg (fun e he => codeJ_nonneg (wt_nonneg e) (wt_le_bl he) ht.le)

/-- **C64**, error branch: the objective raises `ZeroDivisionError` either for every parameter or
for none. -/
theorem C64_raises (o : Obj) (t t' : XR) :
    (∃ e, exp_edges_f_jac o t = .error e) ↔ ∃ e, exp_edges_f_jac o t' = .error e := by
  have h := raises_iff o t t'
  cases h1 : exp_edges_f_jac o t <;> cases h2 : exp_edges_f_jac o t' <;> rw [h1, h2] at h <;>
    simp_all [Except.isOk, Except.toBool]

theorem exSupported (s : Bool) : Supported 4 s (fun _ => 1) (fun _ => 1) exGroups {(0, 1)} := by
  intro k hk
  rw [Finset.mem_singleton] at hk
  subst hk
  refine ⟨(0, 2), Law.mem_pairs.2 ⟨by norm_num, by norm_num, .inl (by norm_num)⟩, by decide, ?_⟩
  simp

example : Stores 2 exAdj {(0, 1)} ∧ (∀ i < 4, exGroups i < 2) ∧
    Supported 4 false (fun _ => 1) (fun _ => 1) exGroups {(0, 1)} ∧
    ∀ k ∈ ({(0, 1)} : Finset (ℕ × ℕ)), 1 / 10 ^ 12 ≤
      1 - ∏ e ∈ Law.block (Law.pairs 4 false) exGroups k,
        (1 - pr (ENNReal.ofReal 1) (fun _ => 1) (fun _ => 1) e) := by
  refine ⟨exAdj_stores, by decide, exSupported false, ?_⟩
  intro k hk
  rw [Finset.mem_singleton] at hk
  subst hk
  rw [noneOf_block, sub_sub_cancel, invProb_of_ne_top
    (ENNReal.mul_ne_top ENNReal.ofReal_ne_top ENNReal.coe_ne_top), ENNReal.toReal_mul,
    ENNReal.toReal_ofReal zero_le_one]
  have hb : blockSum 4 false exGroups (fun _ => 1) (fun _ => 1) (0, 1) = 4 := by
    simp only [blockSum, mul_one, Finset.sum_const, nsmul_eq_mul]
    have : (Law.block (Law.pairs 4 false) exGroups (0, 1)).card = 4 := by decide
    rw [this]; norm_num
  rw [hb]
  have h := mul_exp_le (4 : ℝ)
  have h2 : Real.exp (-4) ≤ 1 / 2 := by
    have := Real.add_one_le_exp (4 : ℝ)
    rw [Real.exp_neg, inv_le_comm₀ (Real.exp_pos _) (by norm_num)]
    linarith
  norm_num
  norm_num at h2
  linarith

theorem exBlock (e : ℕ × ℕ) (he : e ∈ linkable 4 false (fun _ => 1) (fun _ => 1) exGroups {(0, 1)}) :
    wt (fun _ => 1) (fun _ => 1) e = 1 ∧ bl 4 false exGroups (fun _ => 1) (fun _ => 1) e = 4 := by
  refine ⟨by simp [wt], ?_⟩
  have hk := (Finset.mem_filter.1 he).2.1
  rw [Finset.mem_singleton] at hk
  unfold bl
  rw [hk]
  simp only [blockSum, mul_one, Finset.sum_const, nsmul_eq_mul]
  have : (Law.block (Law.pairs 4 false) exGroups (0, 1)).card = 4 := by decide
  rw [this]; norm_num

theorem exLinkable : (linkable 4 false (fun _ => 1) (fun _ => 1) exGroups {(0, 1)}).card = 4 := by
  have : linkable 4 false (fun _ => 1) (fun _ => 1) exGroups {(0, 1)}
      = (Law.pairs 4 false).filter (fun e => (exGroups e.1, exGroups e.2) ∈
        ({(0, 1)} : Finset (ℕ × ℕ))) := by
    unfold linkable
    refine Finset.filter_congr (fun e _ => ?_)
    simp
  rw [this]
  decide

/-- **C64** is false for small parameters: four vertices in two groups with the single coarse link
`0 → 1` and unit properties.  At `1e-13` the objective is the number of coarse links, which is less
than the mean number of links. -/
theorem C64_violated : ∃ t f j : ℝ, 0 < t ∧
    exp_edges_f_jac (mk 4 2 d (fun _ => 1) (fun _ => 1) exGroups exAdj false) (fin t)
      = .ok (fin f, fin j) ∧
    f = 1 ∧ f < meanEdges 4 false (fun _ => 1) (fun _ => 1) exGroups {(0, 1)} t := by
  have ht : (0 : ℝ) < 1 / 10 ^ 13 := by norm_num
  have hf : ∑ e ∈ inside 4 false exGroups {(0, 1)}, codeF (wt (fun _ => 1) (fun _ => 1) e)
      (bl 4 false exGroups (fun _ => 1) (fun _ => 1) e) (1 / 10 ^ 13) = 1 := by
    rw [code_sum, Finset.sum_congr rfl (g := fun _ => (1 / 4 : ℝ)), Finset.sum_const, exLinkable]
    · norm_num
    · intro e he
      obtain ⟨h1, h2⟩ := exBlock e he
      rw [h1, h2, codeF, if_neg one_ne_zero, if_pos]
      have := one_sub_exp_le (1 / 10 ^ 13 * 4 : ℝ)
      norm_num at this ⊢
      linarith
  refine ⟨_, _, _, ht, f_jac_fin exAdj_stores (by decide) (exSupported false) ht.le, hf, ?_⟩
  rw [meanEdges_total exAdj_stores (by decide) (exSupported false) ht, hf, totalF,
    Finset.sum_congr rfl (g := fun _ => ratio 1 4 (1 / 10 ^ 13)) (fun e he => by
      obtain ⟨h1, h2⟩ := exBlock e he
      rw [h1, h2]), Finset.sum_const, exLinkable]
  have := ratio_gt one_pos (by norm_num : (1 : ℝ) < 4) ht
  rw [nsmul_eq_mul]
  push_cast
  linarith

/-! ## C65 -/

theorem totalF_mono {u t : ℝ} (hu : 0 ≤ u) (h : u ≤ t) :
    totalF n s x y groups A u ≤ totalF n s x y groups A t :=
  Finset.sum_le_sum (fun _ he => ratio_mono (linkable_facts he).1 (linkable_facts he).2 hu h)

theorem totalF_le {t : ℝ} (ht : 0 ≤ t) :
    totalF n s x y groups A t ≤ (linkable n s x y groups A).card := by
  rw [Finset.card_eq_sum_ones, Nat.cast_sum]
  refine Finset.sum_le_sum (fun _ he => ?_)
  rw [Nat.cast_one]
  exact ratio_le_one (linkable_facts he).1 (linkable_facts he).2 ht

theorem totalF_lim :
    Tendsto (totalF n s x y groups A) atTop (𝓝 (linkable n s x y groups A).card) := by
  have : ((linkable n s x y groups A).card : ℝ) = ∑ e ∈ linkable n s x y groups A, (1 : ℝ) := by
    simp
  rw [this]
  exact tendsto_finsetSum _ (fun e he => ratio_lim (linkable_facts he).1 (linkable_facts he).2)

/-- There are more linkable pairs than coarse links iff some pair is not alone in its block. -/
theorem exists_strict (hS : Supported n s x y groups A)
    (h : A.card < (linkable n s x y groups A).card) :
    ∃ e ∈ linkable n s x y groups A, wt x y e < bl n s groups x y e := by
  by_contra hcon
  push Not at hcon
  have h1 := sum_fractions' hS
  have h2 : ∑ e ∈ linkable n s x y groups A, wt x y e / bl n s groups x y e
      = (linkable n s x y groups A).card := by
    rw [Finset.card_eq_sum_ones, Nat.cast_sum]
    refine Finset.sum_congr rfl (fun e he => ?_)
    obtain ⟨h3, h4⟩ := linkable_facts he
    rw [le_antisymm h4 (hcon e he), div_self (h3.trans_le h4).ne', Nat.cast_one]
  rw [h2] at h1
  have : A.card = (linkable n s x y groups A).card := by exact_mod_cast h1.symm
  omega

theorem totalF_strict (hS : Supported n s x y groups A)
    (h : A.card < (linkable n s x y groups A).card) {u t : ℝ} (hu : 0 ≤ u) (hut : u < t) :
    totalF n s x y groups A u < totalF n s x y groups A t := by
  obtain ⟨e, he, hlt⟩ := exists_strict hS h
  exact Finset.sum_lt_sum
    (fun _ he => ratio_mono (linkable_facts he).1 (linkable_facts he).2 hu hut.le)
    ⟨e, he, ratio_strict (linkable_facts he).1 hlt hu hut⟩

/-- **C65**, range: at every positive parameter the mean number of links lies between the number of
coarse links and the number of pairs that can be linked; these are its limits at `0` and `inf`; it
does not decrease with the parameter. -/
theorem C65_range (hA : Stores M adj A) (hg : ∀ i < n, groups i < M)
    (hS : Supported n s x y groups A) :
    (∀ t > 0, (A.card : ℝ) ≤ meanEdges n s x y groups A t ∧
      meanEdges n s x y groups A t ≤ ((Law.pairs n s).filter (fun e =>
        (groups e.1, groups e.2) ∈ A ∧ 0 < x e.1 ∧ 0 < y e.2)).card) ∧
    Tendsto (meanEdges n s x y groups A) (𝓝[>] 0) (𝓝 A.card) ∧
    Tendsto (meanEdges n s x y groups A) atTop (𝓝 ((Law.pairs n s).filter (fun e =>
        (groups e.1, groups e.2) ∈ A ∧ 0 < x e.1 ∧ 0 < y e.2)).card) ∧
    MonotoneOn (meanEdges n s x y groups A) (Set.Ioi 0) := by
  refine ⟨fun t ht => ?_, ?_, ?_, fun u hu t ht hut => ?_⟩
  · rw [meanEdges_total hA hg hS ht, ← totalF_zero hS]
    exact ⟨totalF_mono (le_refl 0) (le_of_lt ht), totalF_le (le_of_lt ht)⟩
  · obtain ⟨-, -, -, h, -⟩ := C64_zero (d := 0) hA hg hS
    exact h
  · refine (totalF_lim (n := n) (s := s) (x := x) (y := y) (groups := groups) (A := A)).congr' ?_
    filter_upwards [eventually_gt_atTop (0 : ℝ)] with t ht
    exact (meanEdges_total hA hg hS ht).symm
  · rw [meanEdges_total hA hg hS hu, meanEdges_total hA hg hS ht]
    exact totalF_mono (le_of_lt hu) hut

/-- **C65**, attainable densities: a number of edges strictly between the number of coarse links
and the number of pairs that can be linked is reproduced by exactly one positive parameter. -/
theorem C65_unique (hA : Stores M adj A) (hg : ∀ i < n, groups i < M)
    (hS : Supported n s x y groups A) {m : ℝ} (h1 : (A.card : ℝ) < m)
    (h2 : m < ((Law.pairs n s).filter (fun e =>
        (groups e.1, groups e.2) ∈ A ∧ 0 < x e.1 ∧ 0 < y e.2)).card) :
    ∃! t : ℝ, 0 < t ∧ expected_num_edges (mk n M (ENNReal.ofReal t) x y groups adj s)
      = .ok (fin m) := by
  have hlt : A.card < (linkable n s x y groups A).card := by
    have : (A.card : ℝ) < (linkable n s x y groups A).card := h1.trans h2
    exact_mod_cast this
  have hlim := totalF_lim (n := n) (s := s) (x := x) (y := y) (groups := groups) (A := A)
  obtain ⟨T, hT, hT0⟩ := ((hlim.eventually (lt_mem_nhds h2)).and
    (eventually_gt_atTop (0 : ℝ))).exists
  have hcont : ContinuousOn (totalF n s x y groups A) (Set.Icc 0 T) := fun u hu =>
    (totalF_hasDerivAt hu.1).continuousAt.continuousWithinAt
  have hmem : m ∈ Set.Icc (totalF n s x y groups A 0) (totalF n s x y groups A T) := by
    rw [totalF_zero hS]
    exact ⟨h1.le, le_of_lt hT⟩
  obtain ⟨t, ht, htm⟩ := intermediate_value_Icc hT0.le hcont hmem
  have htpos : 0 < t := by
    refine ht.1.lt_of_ne ?_
    rintro rfl
    rw [totalF_zero hS] at htm
    exact h1.ne htm
  refine ⟨t, ⟨htpos, ?_⟩, ?_⟩
  · show expected_num_edges _ = _
    rw [edges_fin hA hg hS htpos.le, htm]
  · rintro u ⟨hu, hum⟩
    rw [edges_fin hA hg hS hu.le, Except.ok.injEq, fin_inj] at hum
    rcases lt_trichotomy u t with h | h | h
    · have := totalF_strict hS hlt hu.le h
      linarith
    · exact h
    · have := totalF_strict hS hlt htpos.le h
      linarith

/-- **C65**, unattainable densities: no parameter, finite or not, reproduces a number of edges
below the number of coarse links or above the number of pairs that can be linked. -/
theorem C65_none (hA : Stores M adj A) (hg : ∀ i < n, groups i < M)
    (hS : Supported n s x y groups A) {m : ℝ}
    (h : m < A.card ∨ (((Law.pairs n s).filter (fun e =>
        (groups e.1, groups e.2) ∈ A ∧ 0 < x e.1 ∧ 0 < y e.2)).card : ℝ) < m) (d : ℝ≥0∞) :
    expected_num_edges (mk n M d x y groups adj s) ≠ .ok (fin m) := by
  have hb : (A.card : ℝ) ≤ (linkable n s x y groups A).card := by
    rw [← totalF_zero hS]; exact totalF_le (le_refl 0)
  intro hm
  have key : (A.card : ℝ) ≤ m ∧ m ≤ (linkable n s x y groups A).card := by
    by_cases hd : d = ⊤
    · subst hd
      rw [edges_top hA hg hS, Except.ok.injEq, fin_inj] at hm
      rw [← hm]
      exact ⟨hb, le_refl _⟩
    · rw [← ENNReal.ofReal_toReal hd, edges_fin hA hg hS ENNReal.toReal_nonneg, Except.ok.injEq,
        fin_inj] at hm
      rw [← hm, ← totalF_zero hS]
      exact ⟨totalF_mono (le_refl 0) ENNReal.toReal_nonneg, totalF_le ENNReal.toReal_nonneg⟩
  rcases h with h | h
  · linarith [key.1]
  · exact absurd key.2 (not_le.2 h)

/-- The parameter interval of `fit`. -/
theorem mem_cfg {func : XR → XR × XR} {m : ℝ} {o : Fit.Opts} {v : XR}
    (h : (Fit.cfg func m o).Mem v) : v = pinf ∨ ∃ t : ℝ, 0 ≤ t ∧ v = fin t := by
  cases v with
  | fin t =>
    refine .inr ⟨t, ?_, rfl⟩
    have := h.1
    simpa [Fit.cfg] using this
  | pinf => exact .inl rfl
  | ninf =>
    have := h.1
    simp [Fit.cfg, leb] at this
  | nan =>
    have := h.1
    simp [Fit.cfg, leb] at this

theorem objective_fin (hA : Stores M adj A) (hg : ∀ i < n, groups i < M)
    (hS : Supported n s x y groups A) {t : ℝ} (ht : 0 ≤ t) :
    objective (mk n M d x y groups adj s) (fin t)
      = (fin (∑ e ∈ inside n s groups A, codeF (wt x y e) (bl n s groups x y e) t),
          fin (∑ e ∈ inside n s groups A, codeJ (wt x y e) (bl n s groups x y e) t)) := by
  unfold objective
  rw [f_jac_fin hA hg hS ht]

theorem objective_pinf (hA : Stores M adj A) (hg : ∀ i < n, groups i < M)
    (hS : Supported n s x y groups A) :
    objective (mk n M d x y groups adj s) pinf
      = (fin (linkable n s x y groups A).card, fin 0) := by
  unfold objective
  rw [(C64_infinite hA hg hS).1]
  rfl

theorem good_objective (hA : Stores M adj A) (hg : ∀ i < n, groups i < M)
    (hS : Supported n s x y groups A) {m : ℝ} (hm : (A.card : ℝ) ≤ m) {o : Fit.Opts}
    (hat : 0 < o.atol) (hrt : 0 ≤ o.rtol) :
    Solver.Good 1 (Fit.cfg (objective (mk n M d x y groups adj s)) m o) where
  sgn := .inl rfl
  atol_pos := hat
  tol_nonneg := by
    have : 0 ≤ m := (Nat.cast_nonneg _).trans hm
    show 0 ≤ o.atol + o.rtol * m
    positivity
  no_f_l := rfl
  no_f_u := rfl
  l_ne := by simp [Fit.cfg]
  u_ne := by simp [Fit.cfg]
  val := by
    intro v hv
    rcases mem_cfg hv with rfl | ⟨t, ht, rfl⟩
    · exact ⟨_, 0, objective_pinf hA hg hS, by simp⟩
    · refine ⟨_, _, objective_fin hA hg hS ht, ?_⟩
      rw [one_mul]
      exact Finset.sum_nonneg (fun e he => codeJ_nonneg (wt_nonneg e) (wt_le_bl he) ht)
  end_u := by
    intro b v h
    simp [Fit.cfg] at h
  end_l := by
    intro a v ha _ hv
    have h0 : (Fit.cfg (objective (mk n M d x y groups adj s)) m o).x_l = fin 0 := rfl
    rw [h0] at hv
    obtain ⟨j, hj, -⟩ := C64_zero (d := d) (s := s) hA hg hS
    have : objective (mk n M d x y groups adj s) (fin 0) = (fin A.card, fin j) := by
      unfold objective; rw [hj]
    have hv' : objective (mk n M d x y groups adj s) (fin 0) = (fin v, fin 0) := hv
    rw [this, Prod.mk.injEq, fin_inj] at hv'
    rw [one_mul, ← hv'.1]
    show (A.card : ℝ) - m ≤ 0
    linarith

/-- **C65**, the fit: if the number of edges is at least the number of coarse links, `fit` from any
finite non-negative starting point raises no error, the parameter it sets is a non-negative number
or `inf`, one of the flags is set, and if it reports convergence, the expected number of edges of
the fitted model is the given number of edges up to the tolerances plus `2e-12` per coarse link. -/
theorem C65_fit (hA : Stores M adj A) (hg : ∀ i < n, groups i < M)
    (hS : Supported n s x y groups A) {m : ℝ} (hm : (A.card : ℝ) ≤ m) {o : Fit.Opts}
    (hat : 0 < o.atol) (hrt : 0 ≤ o.rtol) (x0 : ℝ≥0) :
    ∃ sol, fit (mk n M d x y groups adj s) (some m) (.scalar (fin x0) false) .density o = .ok sol ∧
      (sol.converged = true ∨ sol.max_iter_reached = true ∨ sol.no_change_stop = true) ∧
      ∃ d' : ℝ≥0∞, sol.x = ofENN d' ∧
        ∃ v, expected_num_edges (mk n M d' x y groups adj s) = .ok (fin v) ∧
          (sol.converged = true → |v - m| ≤ o.atol + o.rtol * m + 2 / 10 ^ 12 * A.card) := by
  have hG := good_objective (d := d) hA hg hS hm hat hrt
  have hmem : (Fit.cfg (objective (mk n M d x y groups adj s)) m o).Mem (fin x0) := by
    constructor
    · simp [Fit.cfg]
    · rfl
  obtain ⟨sol, hsol, hx, -⟩ := Solver.C30_total hG hmem
  have hm0 : 0 ≤ m := (Nat.cast_nonneg _).trans hm
  refine ⟨sol, ?_, ?_, ?_⟩
  · have hneg : Fit.anyNeg [fin (x0 : ℝ)] = false := by simp [Fit.anyNeg, zero_def]
    have hs : Fit.fitSingle (objective (mk n M d x y groups adj s)) (some m)
        (.scalar (fin x0) false) .density o = .ok sol := by
      simp [Fit.fitSingle, Fit.X0.single, hneg, hsol, Except.mapError]
    unfold fit
    rw [hs]
    have : (Fit.X0.scalar (fin (x0 : ℝ)) false).single.vals.getD 0 0 = fin x0 := rfl
    rw [this]
    have hok := f_jac_fin (d := d) hA hg hS x0.2
    simp only
    rw [show fin (x0 : ℝ) = fin x0.1 from rfl, hok]
    rfl
  · exact Solver.C32_explained_good hG (mul_nonneg hrt hm0) (by simp) (by simp [Fit.cfg])
      (by simp [Fit.cfg]) hsol
  · have hc := (Solver.C32_report hsol).1
    rcases mem_cfg hx with h | ⟨t, ht, h⟩
    · refine ⟨⊤, by rw [h]; rfl, _, edges_top hA hg hS, fun hcv => ?_⟩
      rw [hc, h] at hcv
      have e := objective_pinf (d := d) (s := s) hA hg hS
      simp only [Solver.residual, Fit.cfg, e, neg_fin, fin_add_fin, abs_fin, leb_fin,
        decide_eq_true_eq, ← sub_eq_add_neg] at hcv
      have : (0 : ℝ) ≤ 2 / 10 ^ 12 * A.card := by positivity
      linarith
    · refine ⟨ENNReal.ofReal t, by rw [h, ofENN_of_ne_top ENNReal.ofReal_ne_top,
        ENNReal.toReal_ofReal ht], _, edges_fin hA hg hS ht, fun hcv => ?_⟩
      rw [hc, h] at hcv
      have e := objective_fin (d := d) (s := s) hA hg hS ht
      simp only [Solver.residual, Fit.cfg, e, neg_fin, fin_add_fin, abs_fin, leb_fin,
        decide_eq_true_eq, ← sub_eq_add_neg] at hcv
      have h2 := code_near hS ht
      rw [abs_sub_comm] at h2
      have := abs_sub_le (totalF n s x y groups A t)
        (∑ e ∈ inside n s groups A, codeF (wt x y e) (bl n s groups x y e) t) m
      linarith

/-- **C65**, rejected calls: without a number of edges, with another method, or with a negative
starting point `fit` raises `ValueError` whatever the properties. -/
theorem C65_rejects (ob : Obj) (m : Option ℝ) (x0 : Fit.X0) (meth : Fit.Method) (o : Fit.Opts)
    (h : m = none ∨ meth ≠ .density ∨ Fit.anyNeg x0.single.vals = true ∨
      x0.single.vals.length ≠ 1 ∨ x0.single.numeric = false) :
    fit ob m x0 meth o = .error (.fit .valueError) := by
  have : Fit.fitSingle (objective ob) m x0 meth o = .error .valueError := by
    unfold Fit.fitSingle
    simp only
    split
    · next v hv =>
      split_ifs with h1 h2
      · rfl
      · rfl
      · rw [hv] at h
        simp only [Bool.not_eq_true'] at h1
        have h3 : m = none ∨ meth ≠ .density := by
          rcases h with h | h | h | h | h
          · exact .inl h
          · exact .inr h
          · exact absurd h (by simpa using h2)
          · simp at h
          · exact absurd h (by simpa using h1)
        cases meth with
        | density =>
          rcases h3 with h3 | h3
          · rw [h3]
          · exact absurd rfl h3
        | mle => rfl
        | other => rfl
    · rfl
  unfold fit
  rw [this]

example : ({(0, 1)} : Finset (ℕ × ℕ)).card < (2 : ℝ) ∧
    (2 : ℝ) < ((Law.pairs 4 false).filter (fun e => (exGroups e.1, exGroups e.2) ∈
      ({(0, 1)} : Finset (ℕ × ℕ)) ∧ 0 < (fun _ => (1 : ℝ≥0)) e.1 ∧
        0 < (fun _ => (1 : ℝ≥0)) e.2)).card := by
  have h := exLinkable
  unfold linkable at h
  rw [h]
  norm_num

end

end

end Verif.Cond
