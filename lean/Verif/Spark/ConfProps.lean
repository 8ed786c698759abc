import Verif.Spark.Props
import Mathlib.Analysis.Complex.ExponentialBounds

/-!
# C44: confusion counts

`G` is the graph the model is compared with; `E.p i j` the link probability, possibly compared
with thresholds that are not numbers.
-/

namespace Verif

open XR Spec DiGraphEnsemble

namespace Spark

/-- The number of admissible pairs with a given property. -/
noncomputable def howMany (N : ℕ) (s : Bool) (P : ℕ × ℕ → Prop) : ℕ := by
  classical exact ((Law.pairs N s).filter P).card

theorem sum_confTerm (K : ℕ) (th : ℕ → XR) (q : XR) (l : Bool) (k : ℕ) (hk : k < K) :
    let c := ∑ m ∈ Finset.range K, confTerm th q l m
    c.1 k = (if l && leb (th k) q then 1 else 0) ∧
    c.2.1 k = (if !l && leb (th k) q then 1 else 0) ∧
    c.2.2.1 k = (if !l && !leb (th k) q then 1 else 0) ∧
    c.2.2.2 k = (if l && !leb (th k) q then 1 else 0) := by
  have key : ∀ f : ℕ → ℕ, (∑ m ∈ Finset.range K, (Pi.single m (f m) : ℕ → ℕ)) k = f k := by
    intro f
    rw [Finset.sum_apply, Finset.sum_eq_single k]
    · simp
    · intro m _ hm; simp [Ne.symm hm]
    · simp [hk]
  simp only [confTerm, Prod.fst_sum, Prod.snd_sum]
  exact ⟨key _, key _, key _, key _⟩

theorem howMany_eq (N : ℕ) (s : Bool) (c : ℕ × ℕ → Bool) {P : ℕ × ℕ → Prop}
    (h : ∀ e ∈ Law.pairs N s, c e = true ↔ P e) :
    (∑ i ∈ Finset.range N, ∑ j ∈ Finset.range N,
      if admissible i j s then (if c (i, j) then 1 else 0) else 0) = howMany N s P := by
  classical
  rw [← sum_pairs N s (fun e => if c e then 1 else 0), ← Finset.sum_filter, ← Finset.card_eq_sum_ones]
  unfold howMany
  congr 1
  ext e
  simp only [Finset.mem_filter]
  constructor
  · rintro ⟨h1, h2⟩; exact ⟨h1, (h e h1).1 h2⟩
  · rintro ⟨h1, h2⟩; exact ⟨h1, (h e h1).2 h2⟩

/-- The four counts are the numbers of admissible pairs in the four classes, for every number of
blocks and every order of combination. -/
theorem C44_counts {E : Ens} (hd : DyadFree E) {N p : ℕ} (hp : 0 < p) (s : Bool)
    (G : Finset (ℕ × ℕ)) (link : ℕ → ℕ → Bool)
    (hG : ∀ i < N, ∀ j < N, link i j = true ↔ (i, j) ∈ G) (K : ℕ) (th : ℕ → XR) {c : Conf}
    (h : Folds addConf Conf.zero (confusionTasks E N p K th link s) c) (k : ℕ) (hk : k < K) :
    c.tp k = howMany N s (fun e => e ∈ G ∧ leb (th k) (E.p e.1 e.2) = true) ∧
    c.fn k = howMany N s (fun e => e ∈ G ∧ ¬ leb (th k) (E.p e.1 e.2) = true) ∧
    c.fp k = howMany N s (fun e => e ∉ G ∧ leb (th k) (E.p e.1 e.2) = true) ∧
    c.tn k = howMany N s (fun e => e ∉ G ∧ ¬ leb (th k) (E.p e.1 e.2) = true) := by
  have key := folds_iter repC rfl (fun _ _ => rfl) hp
    (fun i j => if admissible i j s then
      ∑ m ∈ Finset.range K, confTerm th (E.p i j) (link i j) m else 0) h
    (fun b => confusion_block hd K th b link s)
  have hl : ∀ e ∈ Law.pairs N s, link e.1 e.2 = true ↔ e ∈ G := fun e he =>
    hG e.1 (Law.mem_pairs.1 (show (e.1, e.2) ∈ _ from he)).1 e.2
      (Law.mem_pairs.1 (show (e.1, e.2) ∈ _ from he)).2.1
  have hc := fun i j => sum_confTerm K th (E.p i j) (link i j) k hk
  have proj : ∀ (φ : (ℕ → ℕ) × (ℕ → ℕ) × (ℕ → ℕ) × (ℕ → ℕ) → ℕ) (_ : φ 0 = 0)
      (_ : ∀ a b, φ (a + b) = φ a + φ b),
      φ (∑ i ∈ Finset.range N, ∑ j ∈ Finset.range N, if admissible i j s then
        ∑ m ∈ Finset.range K, confTerm th (E.p i j) (link i j) m else 0)
      = ∑ i ∈ Finset.range N, ∑ j ∈ Finset.range N, if admissible i j s then
        φ (∑ m ∈ Finset.range K, confTerm th (E.p i j) (link i j) m) else 0 := by
    intro φ h0 hadd
    let Φ : ((ℕ → ℕ) × (ℕ → ℕ) × (ℕ → ℕ) × (ℕ → ℕ)) →+ ℕ := ⟨⟨φ, h0⟩, hadd⟩
    show Φ _ = _
    rw [map_sum]
    refine Finset.sum_congr rfl (fun i _ => ?_)
    rw [map_sum]
    refine Finset.sum_congr rfl (fun j _ => ?_)
    by_cases ha : admissible i j s = true
    · simp only [ha, if_true]; rfl
    · simp only [ha, Bool.false_eq_true, if_false, map_zero]
  rw [key]
  refine ⟨?_, ?_, ?_, ?_⟩
  · refine Eq.trans (proj (fun a => a.1 k) rfl (fun _ _ => rfl)) ?_
    rw [← howMany_eq N s (fun e => link e.1 e.2 && leb (th k) (E.p e.1 e.2))]
    · simp only [(hc _ _).1]
    · intro e he; simp [hl e he]
  · refine Eq.trans (proj (fun a => a.2.2.2 k) rfl (fun _ _ => rfl)) ?_
    rw [← howMany_eq N s (fun e => link e.1 e.2 && !leb (th k) (E.p e.1 e.2))]
    · simp only [(hc _ _).2.2.2]
    · intro e he; simp [hl e he]
  · refine Eq.trans (proj (fun a => a.2.1 k) rfl (fun _ _ => rfl)) ?_
    rw [← howMany_eq N s (fun e => !link e.1 e.2 && leb (th k) (E.p e.1 e.2))]
    · simp only [(hc _ _).2.1]
    · intro e he
      have := hl e he
      cases h1 : link e.1 e.2 <;> simp_all
  · refine Eq.trans (proj (fun a => a.2.2.1 k) rfl (fun _ _ => rfl)) ?_
    rw [← howMany_eq N s (fun e => !link e.1 e.2 && !leb (th k) (E.p e.1 e.2))]
    · simp only [(hc _ _).2.2.1]
    · intro e he
      have := hl e he
      cases h1 : link e.1 e.2 <;> simp_all

theorem howMany_add (N : ℕ) (s : Bool) (P Q : ℕ × ℕ → Prop) :
    howMany N s (fun e => P e ∧ Q e) + howMany N s (fun e => P e ∧ ¬ Q e) = howMany N s P := by
  classical
  unfold howMany
  rw [← Finset.card_filter_add_card_filter_not (s := (Law.pairs N s).filter P) Q]
  congr 1 <;> (rw [Finset.filter_filter]; congr 1; ext e; simp)

theorem howMany_mono (N : ℕ) (s : Bool) {P Q : ℕ × ℕ → Prop} (h : ∀ e, P e → Q e) :
    howMany N s P ≤ howMany N s Q := by
  classical
  unfold howMany
  refine Finset.card_le_card (fun e he => ?_)
  rw [Finset.mem_filter] at he ⊢
  exact ⟨he.1, h e he.2⟩

/-- True positives and false negatives add up to the admissible links of the graph, false
positives and true negatives to the admissible non-links. -/
theorem C44_totals {E : Ens} (hd : DyadFree E) {N p : ℕ} (hp : 0 < p) (s : Bool)
    (G : Finset (ℕ × ℕ)) (link : ℕ → ℕ → Bool)
    (hG : ∀ i < N, ∀ j < N, link i j = true ↔ (i, j) ∈ G) (K : ℕ) (th : ℕ → XR) {c : Conf}
    (h : Folds addConf Conf.zero (confusionTasks E N p K th link s) c) (k : ℕ) (hk : k < K) :
    c.tp k + c.fn k = (Law.pairs N s ∩ G).card ∧
    c.fp k + c.tn k = (Law.pairs N s \ G).card := by
  classical
  obtain ⟨h1, h2, h3, h4⟩ := C44_counts hd hp s G link hG K th h k hk
  rw [h1, h2, h3, h4, howMany_add, howMany_add]
  constructor
  · unfold howMany; congr 1; ext e; simp
  · unfold howMany; congr 1; ext e; simp

/-- A larger threshold gives no more positives. -/
theorem C44_monotone {E : Ens} (hd : DyadFree E) {N p : ℕ} (hp : 0 < p) (s : Bool)
    (G : Finset (ℕ × ℕ)) (link : ℕ → ℕ → Bool)
    (hG : ∀ i < N, ∀ j < N, link i j = true ↔ (i, j) ∈ G) (K : ℕ) (th : ℕ → XR) {c : Conf}
    (h : Folds addConf Conf.zero (confusionTasks E N p K th link s) c) (k l : ℕ) (hk : k < K)
    (hl : l < K) (hkl : leb (th k) (th l) = true) : c.tp l ≤ c.tp k ∧ c.fp l ≤ c.fp k := by
  obtain ⟨h1, -, h3, -⟩ := C44_counts hd hp s G link hG K th h k hk
  obtain ⟨h1', -, h3', -⟩ := C44_counts hd hp s G link hG K th h l hl
  rw [h1, h3, h1', h3']
  exact ⟨howMany_mono N s (fun e he => ⟨he.1, leb_trans hkl he.2⟩),
    howMany_mono N s (fun e he => ⟨he.1, leb_trans hkl he.2⟩)⟩

example : ∃ (E : Ens) (c : Conf), DyadFree E ∧
    Folds addConf Conf.zero
      (confusionTasks E 25 2 2 (fun k => fin k) (linkOf {(0, 1), (3, 3)}) false) c :=
  ⟨_, _, (IsSpark.fit 1 (fun _ => 1) (fun _ => 1)).dyadFree, folds_fold _ _ _⟩

/-! ## Automatic thresholds -/

theorem one_lt_log_ten : 1 < Real.log 10 := by
  rw [Real.lt_log_iff_exp_lt (by norm_num)]
  have := Real.exp_one_lt_d9
  linarith

theorem ten_rpow_log {q : ℝ} (hq : 0 < q) : (10 : ℝ) ^ Real.log q = q ^ Real.log 10 := by
  rw [Real.rpow_def_of_pos (by norm_num), Real.rpow_def_of_pos hq, mul_comm]

theorem logspace_mem {a b : ℝ} (hab : a ≤ b) {K k : ℕ} (hk : k < K) :
    (10 : ℝ) ^ a ≤ logspace a b K k ∧ logspace a b K k ≤ (10 : ℝ) ^ b := by
  unfold logspace
  have h10 : (1 : ℝ) < 10 := by norm_num
  by_cases hK : K = 1
  · rw [if_pos hK]
    exact ⟨le_rfl, (Real.rpow_le_rpow_left_iff h10).2 hab⟩
  · rw [if_neg hK]
    have hK1 : (0 : ℝ) < K - 1 := by
      have : (2 : ℝ) ≤ K := by exact_mod_cast (by omega : 2 ≤ K)
      linarith
    have hkK : (k : ℝ) ≤ K - 1 := by
      have : (k : ℝ) + 1 ≤ K := by exact_mod_cast hk
      linarith
    have hk0 : (0 : ℝ) ≤ k := Nat.cast_nonneg k
    have hba : 0 ≤ b - a := by linarith
    rw [Real.rpow_le_rpow_left_iff h10, Real.rpow_le_rpow_left_iff h10]
    have e : (k : ℝ) * ((b - a) / (K - 1)) = (b - a) * (k / (K - 1)) := by ring
    have h1 : (k : ℝ) / (K - 1) ≤ 1 := (div_le_one hK1).2 hkK
    have h2 : 0 ≤ (k : ℝ) / (K - 1) := div_nonneg hk0 hK1.le
    rw [e]
    constructor
    · nlinarith [mul_nonneg hba h2]
    · nlinarith [mul_le_mul_of_nonneg_left h1 hba]

theorem autoThresholds_ok {p_min p_max : ℝ} (h0 : 0 < p_min) (h1 : 0 < p_max) (K : ℕ) :
    autoThresholds p_min p_max K
      = .ok (K, fun k => fin (logspace (Real.log p_min) (Real.log p_max) K k)) := by
  simp only [autoThresholds, mathLog, if_pos h0, if_pos h1, bind, Except.bind]
  rw [if_neg (by omega)]; simp

/-- What holds: the requested number of thresholds, all of them positive and not above the largest
link probability.  Missing from the claim: they do not stay above the smallest one, see
`C44_thresholds_violated`. -/
theorem C44_thresholds_partial {p_min p_max : ℝ} (h0 : 0 < p_min) (h1 : p_min ≤ p_max)
    (h2 : p_max ≤ 1) (K : ℕ) : ∃ th : ℕ → ℝ,
    chooseThresholds p_min p_max (.int K) = .ok (K, fun k => fin (th k)) ∧
    ∀ k < K, 0 < th k ∧ th k ≤ p_max := by
  have hpm : 0 < p_max := h0.trans_le h1
  refine ⟨logspace (Real.log p_min) (Real.log p_max) K, ?_, fun k hk => ⟨?_, ?_⟩⟩
  · exact autoThresholds_ok h0 hpm K
  · exact Real.rpow_pos_of_pos (by norm_num) _
  · refine (logspace_mem (Real.log_le_log h0 h1) hk).2.trans ?_
    rw [ten_rpow_log hpm]
    calc p_max ^ Real.log 10 ≤ p_max ^ (1 : ℝ) :=
          Real.rpow_le_rpow_of_exponent_ge hpm h2 one_lt_log_ten.le
      _ = p_max := Real.rpow_one _

example : (0 : ℝ) < 1 / 10 ∧ (1 / 10 : ℝ) ≤ 1 / 2 ∧ (1 / 2 : ℝ) ≤ 1 := by norm_num

/-- Natural logarithms are passed where powers of ten are taken, so the first threshold is always
below the smallest link probability unless that is one. -/
theorem C44_thresholds_violated {p_min p_max : ℝ} (h0 : 0 < p_min) (h1 : p_min < 1)
    (hm : p_min ≤ p_max) : ∃ th : ℕ → ℝ,
    chooseThresholds p_min p_max .none = .ok (20, fun k => fin (th k)) ∧ th 0 < p_min := by
  have hpm : 0 < p_max := h0.trans_le hm
  refine ⟨logspace (Real.log p_min) (Real.log p_max) 20, ?_, ?_⟩
  · exact autoThresholds_ok h0 hpm 20
  · have : logspace (Real.log p_min) (Real.log p_max) 20 0 = p_min ^ Real.log 10 := by
      rw [← ten_rpow_log h0]; simp [logspace]
    rw [this]
    calc p_min ^ Real.log 10 < p_min ^ (1 : ℝ) :=
          Real.rpow_lt_rpow_of_exponent_gt h0 h1 one_lt_log_ten
      _ = p_min := Real.rpow_one _

/-- When all links have the same probability below one, every automatic threshold is below it, and
every pair is counted as a positive. -/
theorem C44_degenerate_violated {q : ℝ} (h0 : 0 < q) (h1 : q < 1) : ∃ th : ℕ → ℝ,
    chooseThresholds q q .none = .ok (20, fun k => fin (th k)) ∧ ∀ k < 20, th k < q := by
  refine ⟨logspace (Real.log q) (Real.log q) 20, ?_, fun k hk => ?_⟩
  · exact autoThresholds_ok h0 h0 20
  · refine (logspace_mem le_rfl hk).2.trans_lt ?_
    rw [ten_rpow_log h0]
    calc q ^ Real.log 10 < q ^ (1 : ℝ) :=
          Real.rpow_lt_rpow_of_exponent_gt h0 h1 one_lt_log_ten
      _ = q := Real.rpow_one _

/-- A vertex with a vanishing property makes the smallest probability zero, and the automatic
choice raises. -/
theorem C44_zero_violated (p_max : ℝ) :
    chooseThresholds 0 p_max .none = .error .mathDomain := by
  simp only [chooseThresholds, autoThresholds, mathLog, lt_irrefl, if_false]; rfl

/-- Anything that is neither absent, an integer nor an array is refused. -/
theorem C44_refused (p_min p_max : ℝ) :
    chooseThresholds p_min p_max .other = .error .valueError := rfl

end Spark

end Verif
