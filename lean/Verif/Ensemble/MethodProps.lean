import Verif.Ensemble.Method
import Verif.Ensemble.QueryProps

/-!
# C51–C53: arguments of `log_likelihood` and `sample`
-/

namespace Verif

open XR DiGraphEnsemble

namespace Method

/-- The links denoted by an argument: the non-zero entries. -/
def Arg.IsLink : Arg → ℕ → ℕ → Prop
  | .graph _ G, i, j => (i, j) ∈ G
  | .sparse m, i, j => m.val i j ≠ 0
  | .ndarray _ a, i, j => a i j ≠ 0
  | .other, _, _ => False

/-- The shape of an argument. -/
def Arg.shape : Arg → ℕ × ℕ
  | .graph n _ => (n, n)
  | .sparse m => m.shape
  | .ndarray s _ => s
  | .other => (0, 0)

/-- No entry of the first `n` rows is stored with value zero. -/
def Arg.NoStoredZeros (n : ℕ) : Arg → Prop
  | .sparse m => ∀ i < n, ∀ e ∈ m.row i, m.val i e.1 ≠ 0
  | _ => True

theorem likelihood_congr {E : Ens} (hE : E.Coherent) {n : ℕ} {s : Bool} {l l' : ℕ → ℕ → Bool}
    (h : ∀ i < n, ∀ j < n, l i j = l' i j) : E.likelihood n l s = E.likelihood n l' s := by
  rw [likelihood_eq hE, likelihood_eq hE]
  congr 1
  refine Finset.prod_congr rfl (fun e he => ?_)
  have hm := Law.mem_pairs.1 (show (e.1, e.2) ∈ _ from he)
  rw [h e.1 hm.1 e.2 hm.2.1]

theorem mem_row_of_val_ne {m : Stored} {i j : ℕ} (h : m.val i j ≠ 0) :
    ((m.row i).map Prod.fst).contains j = true := by
  rw [List.contains_iff_mem]
  by_contra hn
  apply h
  unfold Stored.val
  have : (m.row i).filter (fun e => e.1 == j) = [] := by
    rw [List.filter_eq_nil_iff]
    intro e he hej
    exact hn (List.mem_map.2 ⟨e, he, by simpa using hej⟩)
  rw [this]; rfl

/-- Both link tests decide the non-zero entries (sparse: when no zero is stored). -/
theorem adjOf_spec (B : Backend) (g : Arg) (n : ℕ) (hg : g ≠ .other)
    (hz : B = .sparse → g.NoStoredZeros n) :
    ∃ l, adjOf B g = .ok (g.shape, l) ∧ ∀ i < n, ∀ j, l i j = true ↔ g.IsLink i j := by
  cases g with
  | other => exact absurd rfl hg
  | graph k G => exact ⟨_, rfl, fun i _ j => by simp [Arg.IsLink]⟩
  | ndarray s a => exact ⟨_, rfl, fun i _ j => by simp [Arg.IsLink]⟩
  | sparse m =>
    cases B with
    | dense => exact ⟨_, rfl, fun i _ j => by simp [Arg.IsLink]⟩
    | sparse =>
      refine ⟨_, rfl, fun i hi j => ⟨fun h => ?_, fun h => mem_row_of_val_ne h⟩⟩
      rw [List.contains_iff_mem, List.mem_map] at h
      obtain ⟨e, he, rfl⟩ := h
      exact hz rfl i hi e he

open Classical in
/-- The links of an argument among `n` vertices, as a set. -/
noncomputable def Arg.links (g : Arg) (n : ℕ) : Finset (ℕ × ℕ) :=
  (Finset.range n ×ˢ Finset.range n).filter (fun e => g.IsLink e.1 e.2)

theorem Arg.mem_links {g : Arg} {n i j : ℕ} :
    (i, j) ∈ g.links n ↔ (i < n ∧ j < n) ∧ g.IsLink i j := by
  classical
  unfold Arg.links
  simp

/-! ## C51, C53 -/

/-- Complete description of `log_likelihood` when no zero is stored explicitly: its error
branches, and otherwise the logarithm of the probability of the set of non-zero entries. -/
theorem C53_log_likelihood (B : Backend) (E : Ens) (n : ℕ) (fitted : Option E.δ) (b : Bool)
    (g : Arg) (sl : Option Bool)
    (hE : ∀ θ, fitted = some θ → (Query.at_ E θ).Coherent) :
    (fitted = none → log_likelihood B E n fitted b g sl = .error .notFitted) ∧
    (∀ θ, fitted = some θ → g = .other →
      log_likelihood B E n fitted b g sl = .error .badInput) ∧
    (∀ θ, fitted = some θ → g ≠ .other → g.shape ≠ (n, n) →
      log_likelihood B E n fitted b g sl = .error .badShape) ∧
    (∀ θ, fitted = some θ → g ≠ .other → g.shape = (n, n) →
      (B = .sparse → g.NoStoredZeros n) →
      log_likelihood B E n fitted b g sl
        = .ok (Spec.elog (Law.prob (Law.pairs n b) (Query.at_ E θ).prob (g.links n)))) := by
  refine ⟨?_, ?_, ?_, ?_⟩
  · rintro rfl; rfl
  · rintro θ rfl rfl; rfl
  · rintro θ rfl hg hs
    unfold log_likelihood
    cases g with
    | other => exact absurd rfl hg
    | graph k G => exact if_pos hs
    | ndarray s a => exact if_pos hs
    | sparse m => cases B <;> exact if_pos hs
  · rintro θ rfl hg hs hz
    obtain ⟨l, hl, hl'⟩ := adjOf_spec B g n hg hz
    unfold log_likelihood
    dsimp only
    rw [hl]
    dsimp only
    rw [if_neg (by simpa using hs)]
    congr 1
    rw [← (C12_log_likelihood (hE θ rfl) n b (g.links n)).1]
    refine likelihood_congr (hE θ rfl) (fun i hi j hj => ?_)
    rw [Bool.eq_iff_iff, hl' i hi j]
    unfold linkOf
    rw [decide_eq_true_iff, Arg.mem_links]
    simp [hi, hj]

/-- The dense backend: `log_likelihood` of a matrix depends only on the non-zero entries,
whatever is stored. -/
theorem C51_dense (E : Ens) (n : ℕ) (θ : E.δ) (b : Bool) (g g' : Arg) (sl : Option Bool)
    (hE : (Query.at_ E θ).Coherent) (hg : g ≠ .other) (hg' : g' ≠ .other)
    (hs : g.shape = g'.shape)
    (h : ∀ i < n, ∀ j < n, g.IsLink i j ↔ g'.IsLink i j) :
    log_likelihood .dense E n (some θ) b g sl = log_likelihood .dense E n (some θ) b g' sl := by
  have hlinks : g.links n = g'.links n := by
    ext ⟨i, j⟩
    simp only [Arg.links, Finset.mem_filter, Finset.mem_product, Finset.mem_range]
    constructor
    · rintro ⟨⟨hi, hj⟩, hl⟩; exact ⟨⟨hi, hj⟩, (h i hi j hj).1 hl⟩
    · rintro ⟨⟨hi, hj⟩, hl⟩; exact ⟨⟨hi, hj⟩, (h i hi j hj).2 hl⟩
  have hc : ∀ θ', some θ = some θ' → (Query.at_ E θ').Coherent := fun θ' e => by
    cases e; exact hE
  obtain ⟨_, _, h1, h2⟩ := C53_log_likelihood .dense E n (some θ) b g sl hc
  obtain ⟨_, _, h1', h2'⟩ := C53_log_likelihood .dense E n (some θ) b g' sl hc
  by_cases hn : g.shape = (n, n)
  · rw [h2 θ rfl hg hn (by simp), h2' θ rfl hg' (hs ▸ hn) (by simp), hlinks]
  · rw [h1 θ rfl hg hn, h1' θ rfl hg' (hs ▸ hn)]

/-- The sparse backend: the same for matrices without explicitly stored zeros.  What fails:
matrices with stored zeros (`C51_sparse_violated`). -/
theorem C51_sparse_partial (E : Ens) (n : ℕ) (θ : E.δ) (b : Bool) (g : Arg) (sl : Option Bool)
    (hE : (Query.at_ E θ).Coherent) (hz : g.NoStoredZeros n) :
    log_likelihood .sparse E n (some θ) b g sl = log_likelihood .dense E n (some θ) b g sl := by
  have hc : ∀ θ', some θ = some θ' → (Query.at_ E θ').Coherent := fun θ' e => by
    cases e; exact hE
  obtain ⟨_, h0, h1, h2⟩ := C53_log_likelihood .sparse E n (some θ) b g sl hc
  obtain ⟨_, h0', h1', h2'⟩ := C53_log_likelihood .dense E n (some θ) b g sl hc
  by_cases hg : g = .other
  · rw [h0 θ rfl hg, h0' θ rfl hg]
  · by_cases hn : g.shape = (n, n)
    · rw [h2 θ rfl hg hn (fun _ => hz), h2' θ rfl hg hn (by simp)]
    · rw [h1 θ rfl hg hn, h1' θ rfl hg hn]

/-- One vertex, the self loop stored with value zero. -/
def storedZero : Stored := ⟨(1, 1), fun _ => [(0, 0)]⟩

/-- One vertex with an actual self loop of weight 2, no zero stored. -/
def storedLoop : Stored := ⟨(1, 1), fun _ => [(0, 2)]⟩

example : (Arg.sparse storedLoop).NoStoredZeros 1 ∧ (Arg.sparse storedLoop).IsLink 0 0 := by
  refine ⟨fun i hi e he => ?_, ?_⟩
  · simp only [storedLoop, List.mem_singleton] at he
    subst he
    simp [Stored.val, storedLoop]
  · simp [Arg.IsLink, Stored.val, storedLoop]

/-- The sparse backend takes a stored zero for a link: with link probability 0 (parameter 0) the
likelihood of the empty graph is 1, but with the zero stored the result is `-inf`. -/
theorem C51_sparse_violated :
    log_likelihood .sparse Query.wit 1 (some (ofENN 0)) true (.sparse storedZero) none
      = .ok ninf ∧
    log_likelihood .dense Query.wit 1 (some (ofENN 0)) true (.sparse storedZero) none
      = .ok (fin 0) ∧
    (∀ i j, ¬ (Arg.sparse storedZero).IsLink i j) := by
  have hno : ∀ i j, ¬ (Arg.sparse storedZero).IsLink i j := by
    intro i j
    simp only [Arg.IsLink, Stored.val, storedZero, not_not]
    by_cases h : (0 : ℕ) = j <;> simp [h]
  refine ⟨?_, ?_, hno⟩
  · show Except.ok (({ Query.wit with param := ofENN 0 } : Ens).likelihood 1 _ true) = _
    congr 1
    have h := likelihood_congr (n := 1) (s := true) (Query.wit_coherent 0)
      (l := fun i j => ((storedZero.row i).map Prod.fst).contains j)
      (l' := linkOf {(0, 0)}) (fun i hi j hj => by
        obtain rfl : i = 0 := by omega
        obtain rfl : j = 0 := by omega
        simp [linkOf, storedZero])
    refine h.trans ?_
    rw [(C13_impossible (Query.wit_coherent 0) 1 true {(0, 0)}).2.2]
    refine ⟨0, by norm_num, 0, by norm_num, Or.inr rfl, Or.inl ⟨by simp, ?_⟩⟩
    rw [(Query.wit_coherent 0).p_eq, Query.wit_prob]
    simp [Spec.fitProb, zero_def]
  · have h := (C53_log_likelihood .dense Query.wit 1 (some (ofENN 0)) true (.sparse storedZero)
      none (fun θ e => by cases e; exact Query.wit_coherent 0)).2.2.2 (ofENN 0) rfl (by simp) rfl
      (by simp)
    rw [h]
    have hl : (Arg.sparse storedZero).links 1 = ∅ := by
      ext ⟨i, j⟩; simp [Arg.links, hno]
    have p1 : Law.pairs 1 true = {(0, 0)} := by decide
    rw [hl, p1, Law.prob, Finset.prod_singleton, Query.wit_prob]
    simp [Spec.fitProb, Spec.elog]

/-! ## C52 -/

/-- The ensemble with setting `c`: what `selfloops=c` asks for. -/
theorem C52_partial (B : Backend) (E : Ens) (n : ℕ) (fitted : Option E.δ) (b : Bool) (g : Arg)
    (w : Weights) (u e : ℕ → ℕ → ℝ) (sl : Option Bool) (h : sl = none ∨ sl = some b) :
    log_likelihood B E n fitted b g sl = log_likelihood B E n fitted (sl.getD b) g none ∧
    sample E n fitted b w sl u e = sample E n fitted (sl.getD b) w none u e := by
  rcases h with rfl | rfl <;> exact ⟨rfl, rfl⟩

/-- The argument is never honoured: the result does not depend on it. -/
theorem C52_ignored (B : Backend) (E : Ens) (n : ℕ) (fitted : Option E.δ) (b : Bool) (g : Arg)
    (w : Weights) (u e : ℕ → ℕ → ℝ) (sl sl' : Option Bool) :
    log_likelihood B E n fitted b g sl = log_likelihood B E n fitted b g sl' ∧
    sample E n fitted b w sl u e = sample E n fitted b w sl' u e := ⟨rfl, rfl⟩

/-- The claim is false: one vertex, all probabilities 1, ensemble with self loops; asked for the
likelihood without self loops of the empty graph (which is 1) the method returns `-inf`, and
asked for a sample without self loops it returns the self loop. -/
theorem C52_violated (B : Backend) (e : ℕ → ℕ → ℝ) :
    log_likelihood B Query.wit 1 (some (ofENN ⊤)) true (.graph 1 ∅) (some false) = .ok ninf ∧
    log_likelihood B Query.wit 1 (some (ofENN ⊤)) false (.graph 1 ∅) none = .ok (fin 0) ∧
    sample Query.wit 1 (some (ofENN ⊤)) true .none (some false) (fun _ _ => 0) e
      = .ok [((0, 0), 1)] := by
  have hl : (Arg.graph 1 ∅).links 1 = ∅ := by
    ext ⟨i, j⟩; simp [Arg.links, Arg.IsLink]
  have key : ∀ b sl, log_likelihood B Query.wit 1 (some (ofENN ⊤)) b (.graph 1 ∅) sl
      = .ok (Spec.elog (Law.prob (Law.pairs 1 b) (Query.at_ Query.wit (ofENN ⊤)).prob ∅)) := by
    intro b sl
    have h := (C53_log_likelihood B Query.wit 1 (some (ofENN ⊤)) b (.graph 1 ∅)
      sl (fun θ e => by cases e; exact Query.wit_coherent ⊤)).2.2.2 (ofENN ⊤) rfl (by simp) rfl
      (fun _ => trivial)
    rw [h, hl]
  have p1 : Law.pairs 1 true = {(0, 0)} := by decide
  have p0 : Law.pairs 1 false = ∅ := by decide
  refine ⟨?_, ?_, ?_⟩
  · rw [key, p1, Law.prob, Finset.prod_singleton, Query.wit_prob]
    simp [Spec.fitProb, Spec.elog]
  · rw [key, p0]; simp [Law.prob, Spec.elog]
  · have hp : (Query.at_ Query.wit (ofENN ⊤)).p 0 0 = fin 1 := by
      rw [(Query.wit_coherent ⊤).p_eq, Query.wit_prob]; simp [Spec.fitProb]
    have hb : (Query.at_ Query.wit (ofENN ⊤)).binary_sample 1 true (fun _ _ => 0) = [(0, 0)] := by
      unfold Ens.binary_sample DiGraphEnsemble.binary_sample
      have hp' : (Query.at_ Query.wit (ofENN ⊤)).p_ij (Query.at_ Query.wit (ofENN ⊤)).param
        ((Query.at_ Query.wit (ofENN ⊤)).prop_out 0) ((Query.at_ Query.wit (ofENN ⊤)).prop_in 0)
        ((Query.at_ Query.wit (ofENN ⊤)).prop_dyad 0 0) = fin 1 := hp
      simp [List.range_succ, admissible, hp']
    show Except.ok (((Query.at_ Query.wit (ofENN ⊤)).binary_sample 1 true
      (fun _ _ => 0)).map (fun e => (e, (1 : XR)))) = _
    rw [hb]; rfl

/-- Error branches of `sample`. -/
theorem C53_sample (E : Ens) (n : ℕ) (fitted : Option E.δ) (b : Bool) (w : Weights)
    (sl : Option Bool) (u e : ℕ → ℕ → ℝ) :
    (sample E n fitted b w sl u e = .error .notFitted ↔ fitted = none) ∧
    (sample E n fitted b w sl u e = .error .badWeights ↔ fitted ≠ none ∧ w = .other) ∧
    (w = .none → fitted ≠ none → ∃ r, sample E n fitted b w sl u e = .ok r) := by
  cases fitted with
  | none => simp [sample]
  | some θ =>
    cases w with
    | none => simp [sample]
    | other => simp [sample]
    | cremb so si =>
      unfold sample
      dsimp only
      split <;> simp

example : (Arg.graph 1 ∅).shape = (1, 1) ∧ (Arg.graph 1 ∅) ≠ .other ∧
    ∀ θ, some (ofENN 1) = some θ → (Query.at_ Query.wit θ).Coherent :=
  ⟨rfl, by simp, fun θ e => by cases e; exact Query.wit_coherent 1⟩

end Method

end Verif
