import Verif.Layer.Stream
import Verif.Layer.LawProps
import Verif.Ensemble.WeightedProps

/-! # Samples of label-resolved ensembles as results of procedures on a stream -/

namespace Verif

open XR Spec MeasureTheory ProbabilityTheory Set
open scoped ENNReal

namespace RStream

/-! ## Procedures in blocks -/

variable {E R : Type}

/-- The procedures of the first `m` blocks. -/
def blocks (O : ℕ → List E) (m : ℕ) : List (ℕ × E) :=
  (List.range m).flatMap fun k => (O k).map fun e => (k, e)

theorem blocks_succ (O : ℕ → List E) (m : ℕ) :
    blocks O (m + 1) = blocks O m ++ (O m).map fun e => (m, e) := by
  simp [blocks, List.range_succ, List.flatMap_append]

theorem mem_blocks {O : ℕ → List E} {m : ℕ} {x : ℕ × E} :
    x ∈ blocks O m ↔ x.1 < m ∧ x.2 ∈ O x.1 := by
  simp only [blocks, List.mem_flatMap, List.mem_range, List.mem_map]
  constructor
  · rintro ⟨k, hk, e, he, rfl⟩
    exact ⟨hk, he⟩
  · rintro ⟨h1, h2⟩
    exact ⟨x.1, h1, x.2, h2, rfl⟩

theorem nodup_blocks {O : ℕ → List E} (h : ∀ k, (O k).Nodup) (m : ℕ) : (blocks O m).Nodup := by
  induction m with
  | zero => simp [blocks]
  | succ m ih =>
    rw [blocks_succ, List.nodup_append]
    refine ⟨ih, (h m).map fun a b h => (Prod.mk.inj h).2, ?_⟩
    rintro x hx y hy rfl
    obtain ⟨e, _, rfl⟩ := List.mem_map.1 hy
    exact absurd (mem_blocks.1 hx).1 (lt_irrefl _)

/-- The procedures of all blocks. -/
def proc (S : ℕ → E → (ℕ → ℝ) → ℕ × R) (x : ℕ × E) : (ℕ → ℝ) → ℕ × R := S x.1 x.2

theorem used_blocks_succ (S : ℕ → E → (ℕ → ℝ) → ℕ × R) (O : ℕ → List E) (u : ℕ → ℝ) (m : ℕ) :
    used (proc S) (blocks O (m + 1)) u = used (proc S) (blocks O m) u
      + used (S m) (O m) (drop (used (proc S) (blocks O m) u) u) := by
  rw [blocks_succ, used_append, used_map]
  rfl

variable [DecidableEq E] [Inhabited R]

theorem val_blocks (S : ℕ → E → (ℕ → ℝ) → ℕ × R) (O : ℕ → List E) (u : ℕ → ℝ) {m M : ℕ} (h : m < M)
    {e : E} (he : e ∈ O m) :
    val (proc S) (blocks O M) u (m, e)
      = val (S m) (O m) (drop (used (proc S) (blocks O m) u) u) e := by
  induction M with
  | zero => omega
  | succ M ih =>
    rw [blocks_succ, val_append]
    by_cases hm : m < M
    · rw [if_pos (mem_blocks.2 ⟨hm, he⟩), ih hm]
    · obtain rfl : m = M := by omega
      rw [if_neg fun h : (m, e) ∈ blocks O m => absurd (mem_blocks.1 h).1 (lt_irrefl _)]
      exact val_map (proc S) (f := fun e => (m, e)) (fun a b h => (Prod.mk.inj h).2) _ _ e

/-- Results of procedures in blocks are independent. -/
theorem indep_blocks [MeasurableSpace R] {S : ℕ → E → (ℕ → ℝ) → ℕ × R} {O : ℕ → List E}
    {ν : ℕ → E → Measure R} (hS : ∀ k, ∀ e ∈ O k, Fresh (S k e) (ν k e))
    (hν : ∀ k, ∀ e ∈ O k, ν k e univ = 1) (hO : ∀ k, (O k).Nodup)
    {Ω : Type} [MeasurableSpace Ω] {P : Measure Ω} {U : ℕ → Ω → ℝ} (hU : IsUniform P U)
    (f : (Σ k : ℕ, {e // e ∈ O k}) → Ω → R)
    (hf : ∀ x ω, f x ω = val (proc S) (blocks O (x.1 + 1)) (fun i => U i ω) (x.1, x.2.1)) :
    iIndepFun f P ∧ ∀ x, Measurable (f x) ∧ P.map (f x) = ν x.1 x.2.1 := by
  classical
  let ι : (Σ k : ℕ, {e // e ∈ O k}) → ℕ × E := fun x => (x.1, x.2.1)
  have hι : Function.Injective ι := by
    rintro ⟨k, e, he⟩ ⟨k', e', he'⟩ h
    obtain ⟨rfl, rfl⟩ := Prod.mk.inj h
    rfl
  have hf' : ∀ x ω m, x.1 < m → f x ω = val (proc S) (blocks O m) (fun i => U i ω) (x.1, x.2.1) := by
    intro x ω m hm
    rw [hf, val_blocks S O _ (Nat.lt_succ_self _) x.2.2, val_blocks S O _ hm x.2.2]
  have hb : ∀ (T : Finset (Σ k : ℕ, {e // e ∈ O k})) (B : (Σ k : ℕ, {e // e ∈ O k}) → Set R),
      (∀ x ∈ T, MeasurableSet (B x)) → MeasurableSet {ω | ∀ x ∈ T, f x ω ∈ B x} ∧
      P {ω | ∀ x ∈ T, f x ω ∈ B x} = ∏ x ∈ T, ν x.1 x.2.1 (B x) := by
    intro T B hB
    obtain ⟨m, hm⟩ : ∃ m, ∀ x ∈ T, x.1 < m := by
      refine ⟨T.sup (fun x => x.1) + 1, fun x hx => ?_⟩
      exact Nat.lt_succ_of_le (Finset.le_sup (f := fun x : (Σ k : ℕ, {e // e ∈ O k}) => x.1) hx)
    let B' : ℕ × E → Set R := fun y => if h : ∃ x ∈ T, ι x = y then B h.choose else univ
    have hB1 : ∀ x ∈ T, B' (ι x) = B x := by
      intro x hx
      have h : ∃ x' ∈ T, ι x' = ι x := ⟨x, hx, rfl⟩
      show (if h : ∃ x' ∈ T, ι x' = ι x then B h.choose else univ) = B x
      rw [dif_pos h]
      exact congrArg B (hι h.choose_spec.2)
    have hB2 : ∀ y, MeasurableSet (B' y) := by
      intro y
      by_cases h : ∃ x ∈ T, ι x = y
      · obtain ⟨x, hx, rfl⟩ := h
        rw [hB1 x hx]
        exact hB x hx
      · show MeasurableSet (if h : ∃ x ∈ T, ι x = y then B h.choose else univ)
        rw [dif_neg h]
        exact MeasurableSet.univ
    obtain ⟨h1, h2⟩ := measure_val (S := proc S) (ν := fun x => ν x.1 x.2) (blocks O m)
      (fun x hx => hS x.1 x.2 (mem_blocks.1 hx).2) (nodup_blocks hO m) hB2 MeasurableSet.univ
    have hs : {ω | ∀ x ∈ T, f x ω ∈ B x}
        = (fun ω k => U k ω) ⁻¹' {u | (∀ x ∈ blocks O m, val (proc S) (blocks O m) u x ∈ B' x) ∧
            drop (used (proc S) (blocks O m) u) u ∈ univ} := by
      ext ω
      simp only [mem_ofPred_eq, mem_preimage, mem_univ, and_true]
      constructor
      · intro h y hy
        by_cases hT : ∃ x ∈ T, ι x = y
        · obtain ⟨x, hx, rfl⟩ := hT
          rw [hB1 x hx]
          have := h x hx
          rwa [hf' x ω m (hm x hx)] at this
        · show _ ∈ (if h : ∃ x ∈ T, ι x = y then B h.choose else univ)
          rw [dif_neg hT]
          trivial
      · intro h x hx
        rw [hf' x ω m (hm x hx), ← hB1 x hx]
        exact h (ι x) (mem_blocks.2 ⟨hm x hx, x.2.2⟩)
    have hmeas : Measurable fun ω k => U k ω := measurable_pi_iff.2 hU.meas
    rw [hs]
    refine ⟨hmeas h1, ?_⟩
    rw [← Measure.map_apply hmeas h1, hU.map_stream, h2, measure_univ, mul_one]
    have hsub : T.image ι ⊆ (blocks O m).toFinset := by
      intro y hy
      obtain ⟨x, hx, rfl⟩ := Finset.mem_image.1 hy
      rw [List.mem_toFinset]
      exact mem_blocks.2 ⟨hm x hx, x.2.2⟩
    rw [← Finset.prod_subset hsub, Finset.prod_image fun a _ b _ h => hι h]
    · refine Finset.prod_congr rfl fun x hx => ?_
      rw [hB1 x hx]
    · intro y hm hy
      have : B' y = univ := by
        show (if h : ∃ x ∈ T, ι x = y then B h.choose else univ) = _
        rw [dif_neg]
        rintro ⟨x, hx, rfl⟩
        exact hy (Finset.mem_image_of_mem _ hx)
      rw [this]
      exact hν _ _ (mem_blocks.1 (List.mem_toFinset.1 hm)).2
  have hone : ∀ x B, MeasurableSet B → MeasurableSet (f x ⁻¹' B) ∧ P (f x ⁻¹' B) = ν x.1 x.2.1 B := by
    intro x B hB
    have h := hb {x} (fun _ => B) (fun _ _ => hB)
    simp only [Finset.mem_singleton, forall_eq, Finset.prod_singleton] at h
    exact h
  refine ⟨?_, fun x => ?_⟩
  · rw [iIndepFun_iff_measure_inter_preimage_eq_mul]
    intro T B hB
    have h := (hb T B hB).2
    rw [Finset.prod_congr rfl fun x hx => (hone x (B x) (hB x hx)).2, ← h]
    congr 1
    ext ω
    simp
  · have hm : Measurable (f x) := fun B hB => (hone x B hB).1
    refine ⟨hm, ?_⟩
    ext B hB
    rw [Measure.map_apply hm hB]
    exact (hone x B hB).2

/-! ## Laws of procedures -/

theorem fresh_const {R : Type} [MeasurableSpace R] (r : R) :
    Fresh (fun _ => (0, r)) (Measure.dirac r) := by
  intro B hB C hC
  rw [Measure.dirac_apply' _ hB]
  simp only [drop_zero]
  by_cases h : r ∈ B
  · have : {u : ℕ → ℝ | r ∈ B ∧ u ∈ C} = C := by ext; simp [h]
    rw [this]
    exact ⟨hC, by simp [h]⟩
  · have : {u : ℕ → ℝ | r ∈ B ∧ u ∈ C} = ∅ := by ext; simp [h]
    rw [this]
    exact ⟨MeasurableSet.empty, by simp [h]⟩

theorem fresh_exp (μ : ℝ) : Fresh (fun u => (1, μ * -Real.log (1 - u 0))) (expLaw μ) := by
  intro B hB C hC
  have hg : Measurable fun v : ℝ => -Real.log (1 - v) :=
    (Real.measurable_log.comp (measurable_const.sub measurable_id)).neg
  have hm : Measurable fun v : ℝ => μ * -Real.log (1 - v) := hg.const_mul μ
  obtain ⟨h1, h2⟩ := law_first (hm hB) hC
  refine ⟨h1, h2.trans ?_⟩
  congr 1
  rw [expLaw, ← map_neg_log, Measure.map_map (measurable_const_mul μ) hg]
  exact (Measure.map_apply hm hB).symm

/-- A link with a given probability, and then its weight. -/
theorem fresh_link {q : ℝ} (h0 : 0 ≤ q) (h1 : q ≤ 1) {W : (ℕ → ℝ) → ℕ × ℝ} {ν : Measure ℝ}
    (hW : Fresh W ν) :
    Fresh (fun u => if u 0 < q then (1 + (W (drop 1 u)).1, (true, (W (drop 1 u)).2))
      else (1, (false, 0))) (linkLaw q ν) := by
  intro B hB C hC
  have hD' : MeasurableSet {v : ℕ → ℝ | (false, (0 : ℝ)) ∈ B ∧ v ∈ C} := by
    by_cases h : (false, (0 : ℝ)) ∈ B
    · simpa [h] using hC
    · simp [h]
  have hl' : law {v : ℕ → ℝ | (false, (0 : ℝ)) ∈ B ∧ v ∈ C} = B.indicator 1 (false, (0 : ℝ)) * law C := by
    by_cases h : (false, (0 : ℝ)) ∈ B <;> simp [h]
  obtain ⟨hD, hl⟩ := hW _ (measurable_true hB) _ hC
  rw [linkLaw_apply _ _ hB, add_mul, mul_assoc, mul_assoc, ← hl', ← hl]
  convert WCall.split_law h0 h1 hD hD' using 3 <;>
  · ext u
    simp only [mem_ofPred_eq, mem_preimage]
    by_cases h : u 0 < q
    · simp [h, drop_drop]
    · simp [h]

end RStream


/-! ## The samplers -/

open RStream

theorem foldl_lift {α σ τ : Type} (φ : σ → τ) (g : σ → α → σ) (f : τ → α → τ) (l : List α)
    (h : ∀ e ∈ l, ∀ s, φ (g s e) = f (φ s) e) (s : σ) : l.foldl f (φ s) = φ (l.foldl g s) := by
  induction l generalizing s with
  | nil => rfl
  | cons a l ih =>
    rw [List.foldl_cons, List.foldl_cons, ← h a (by simp), ih fun e he => h e (by simp [he])]

namespace Layer

theorem pairOrder_rowX (a b : List (ℕ × ℝ≥0∞)) (s : Bool) :
    pairOrder (rowX a) (rowX b) s = pairOrder a b s := by
  unfold pairOrder rowX
  rw [List.flatMap_map]
  congr 1
  funext x
  rw [List.flatMap_map]

namespace LCall

/-- The call is on the ensemble of kind `K` with parameters `d` and properties `x`, `y` by vertex and
label. -/
def Is (c : LCall) (K : Kind) (d : ℕ → ℝ≥0∞) (x y : ℕ → ℕ → ℝ≥0∞) : Prop :=
  c.p_ijk = K.link.p_ijk ∧ c.param = (fun k => ofENN (d k)) ∧
  match c.src with
  | .sparse xs ys _ => ∃ xr yr : ℕ → List (ℕ × ℝ≥0∞), (∀ i, RowSorted (xr i)) ∧
      (∀ i, RowSorted (yr i)) ∧ xs = (fun i => rowX (xr i)) ∧ ys = (fun i => rowX (yr i)) ∧
      x = (fun i k => entry (xr i) k) ∧ y = (fun i k => entry (yr i) k)
  | .dense xs ys => xs = (fun i k => ofENN (x i k)) ∧ ys = (fun i k => ofENN (y i k))

/-- The pairs visited in a layer. -/
def visited (c : LCall) (k : ℕ) : List (ℕ × ℕ) :=
  match c.src with
  | .sparse xs ys _ => pairOrder (column c.n xs k) (column c.n ys k) c.s
  | .dense _ _ => order c.n c.s

/-- All admissible pairs, first those visited. -/
def all (c : LCall) (k : ℕ) : List (ℕ × ℕ) :=
  c.visited k ++ (order c.n c.s).filter fun e => decide (e ∉ c.visited k)

/-- What is read and returned for the weight of a link of probability `q`. -/
noncomputable def weight (c : LCall) (q : ℝ) (k : ℕ) (e : ℕ × ℕ) (u : ℕ → ℝ) : ℕ × XR :=
  match c.src with
  | .sparse _ _ (.cremb so si) =>
    match (so k).lookup e.1, (si k).lookup e.2 with
    | some a, some b =>
      (1, DiGraphEnsemble.exponential (fin (a * b) / (fin (total (so k)) * fin q)) (u 0))
    | _, _ => (0, fin 0)
  | _ => (0, fin 1)

/-- What is read and returned for a pair. -/
noncomputable def pair (c : LCall) (q : ℕ → ℕ × ℕ → ℝ) (k : ℕ) (e : ℕ × ℕ) (u : ℕ → ℝ) :
    ℕ × (Bool × XR) :=
  if e ∈ c.visited k then
    if u 0 < q k e then
      (1 + (c.weight (q k e) k e (drop 1 u)).1, (true, (c.weight (q k e) k e (drop 1 u)).2))
    else (1, (false, fin 0))
  else (0, (false, fin 0))

variable {c : LCall} {K : Kind} {d : ℕ → ℝ≥0∞} {x y : ℕ → ℕ → ℝ≥0∞}

theorem Is.visited_nodup (h : c.Is K d x y) (k : ℕ) : (c.visited k).Nodup := by
  obtain ⟨-, -, h⟩ := h
  unfold visited
  cases hs : c.src with
  | sparse xs ys w =>
    rw [hs] at h
    obtain ⟨xr, yr, hx, hy, rfl, rfl, -⟩ := h
    simp only
    rw [column_rowX, column_rowX, pairOrder_rowX]
    exact nodup_pairOrder (column_sorted hx k) (column_sorted hy k) c.s
  | dense xs ys => exact nodup_order _ _

theorem visited_sub {k : ℕ} {e : ℕ × ℕ} (h : e ∈ c.visited k) : e ∈ Law.pairs c.n c.s := by
  unfold visited at h
  cases hs : c.src with
  | sparse xs ys w =>
    rw [hs] at h
    obtain ⟨⟨a, ha, h1⟩, ⟨b, hb, h2⟩, hadm⟩ := mem_pairOrder.1 h
    refine Law.mem_pairs.2 (⟨?_, ?_, admissible_iff.1 hadm⟩ : e.1 < c.n ∧ e.2 < c.n ∧ _)
    · rw [← h1]; exact column_lt a ha
    · rw [← h2]; exact column_lt b hb
  | dense xs ys =>
    rw [hs] at h
    exact mem_order.1 h

theorem mem_all {k : ℕ} {e : ℕ × ℕ} : e ∈ c.all k ↔ e ∈ Law.pairs c.n c.s := by
  unfold all
  rw [List.mem_append, List.mem_filter, mem_order]
  constructor
  · rintro (h | h)
    · exact visited_sub h
    · exact h.1
  · intro h
    by_cases hv : e ∈ c.visited k
    · exact Or.inl hv
    · exact Or.inr ⟨h, by simpa using hv⟩

theorem Is.all_nodup (h : c.Is K d x y) (k : ℕ) : (c.all k).Nodup := by
  unfold all
  rw [List.nodup_append]
  refine ⟨h.visited_nodup k, (nodup_order _ _).filter _, ?_⟩
  rintro a ha b hb rfl
  have := (List.mem_filter.1 hb).2
  simp only [decide_eq_true_eq] at this
  exact this ha

/-- Pairs that are not visited cannot be linked. -/
theorem Is.not_visited (h : c.Is K d x y) {k : ℕ} {e : ℕ × ℕ} (he : e ∈ Law.pairs c.n c.s)
    (hv : e ∉ c.visited k) : K.q (d k * x e.1 k * y e.2 k) = 0 := by
  obtain ⟨-, -, h⟩ := h
  unfold visited at hv
  cases hs : c.src with
  | sparse xs ys w =>
    rw [hs] at h hv
    obtain ⟨xr, yr, hx, hy, rfl, rfl, rfl, rfl⟩ := h
    simp only at hv ⊢
    rw [column_rowX, column_rowX, pairOrder_rowX] at hv
    exact pairOrder_zero he hv
  | dense xs ys =>
    rw [hs] at hv
    exact absurd (mem_order.2 he) hv

theorem used_rest (q : ℕ → ℕ × ℕ → ℝ) (k : ℕ) (l : List (ℕ × ℕ)) (hl : ∀ e ∈ l, e ∉ c.visited k)
    (u : ℕ → ℝ) : used (c.pair q k) l u = 0 := by
  induction l generalizing u with
  | nil => rfl
  | cons a l ih =>
    have : (c.pair q k a u).1 = 0 := by
      unfold pair
      rw [if_neg (hl a (by simp))]
    simp only [used, this]
    rw [ih fun e he => hl e (by simp [he])]

theorem val_rest (q : ℕ → ℕ × ℕ → ℝ) (k : ℕ) (l : List (ℕ × ℕ)) (hl : ∀ e ∈ l, e ∉ c.visited k)
    (u : ℕ → ℝ) {e : ℕ × ℕ} (he : e ∈ l) : val (c.pair q k) l u e = (false, fin 0) := by
  induction l generalizing u with
  | nil => simp at he
  | cons a l ih =>
    simp only [val]
    split
    · next h =>
      subst h
      unfold pair
      rw [if_neg (hl _ (by simp))]
    · next h => exact ih (fun e he => hl e (by simp [he])) _ (by simpa [h] using he)

private theorem rest_not (k : ℕ) :
    ∀ e ∈ (order c.n c.s).filter (fun e => decide (e ∉ c.visited k)), e ∉ c.visited k := by
  intro e he
  simpa using (List.mem_filter.1 he).2

theorem used_all (q : ℕ → ℕ × ℕ → ℝ) (k : ℕ) (u : ℕ → ℝ) :
    used (c.pair q k) (c.all k) u = used (c.pair q k) (c.visited k) u := by
  unfold all
  rw [used_append, used_rest q k _ (rest_not k), add_zero]

theorem rows_all (q : ℕ → ℕ × ℕ → ℝ) (k : ℕ) (u : ℕ → ℝ) :
    rowsOf (c.all k) (val (c.pair q k) (c.all k) u)
      = rowsOf (c.visited k) (val (c.pair q k) (c.visited k) u) := by
  have h1 : rowsOf (c.visited k) (val (c.pair q k) (c.all k) u)
      = rowsOf (c.visited k) (val (c.pair q k) (c.visited k) u) := by
    refine rowsOf_congr fun e he => ?_
    unfold all
    rw [val_append, if_pos he]
  rw [← h1]
  conv_lhs => rw [all]
  unfold rowsOf
  rw [List.filterMap_append]
  have : ((order c.n c.s).filter fun e => decide (e ∉ c.visited k)).filterMap (fun e =>
      if (val (c.pair q k) (c.all k) u e).1 then some (e, (val (c.pair q k) (c.all k) u e).2) else none)
      = [] := by
    rw [List.filterMap_eq_nil_iff]
    intro e he
    have hv := rest_not k e he
    have : val (c.pair q k) (c.all k) u e = (false, fin 0) := by
      unfold all
      rw [val_append, if_neg hv, val_rest q k _ (rest_not k) _ he]
    rw [this]
    rfl
  conv_lhs => rw [show c.visited k ++ (order c.n c.s).filter (fun e => decide (e ∉ c.visited k)) = c.all k from rfl]
  rw [this, List.append_nil]

/-- The loop over a layer, as a loop over the visited pairs. -/
theorem fold_visit (h : c.Is K d x y) {xs ys : ℕ → List (ℕ × XR)} {w : Strengths}
    (hs : c.src = .sparse xs ys w) {σ : Type} (f : σ → ℕ → ℕ → XR → σ) (k : ℕ) (init : σ) :
    (column c.n xs k).foldl (fun st a => (column c.n ys k).foldl (fun st b =>
        if admissible a.1 b.1 c.s then
          f st a.1 b.1 (c.p_ijk (c.param k) a.2 b.2 (c.dyad a.1 b.1)) else st) st) init
      = (c.visited k).foldl (fun st e => f st e.1 e.2 (fin (K.q (d k * x e.1 k * y e.2 k)))) init := by
  obtain ⟨hp, hd, h⟩ := h
  rw [hs] at h
  obtain ⟨xr, yr, hx, hy, rfl, rfl, rfl, rfl⟩ := h
  unfold visited
  rw [hs]
  simp only
  rw [hp, hd, column_rowX, column_rowX, pairOrder_rowX,
    ← foldl_pairOrder (fun st i j => f st i j (fin (K.q (d k * entry (xr i) k * entry (yr j) k))))]
  unfold rowX
  rw [List.foldl_map]
  refine foldl_congr_mem _ _ _ (fun a ha st => ?_) _
  rw [List.foldl_map]
  refine foldl_congr_mem _ _ _ (fun b hb st => ?_) _
  have h1 := entry_of_mem (column_sorted hx k) ha
  have h2 := entry_of_mem (column_sorted hy k) hb
  rw [entry_column (column_lt a ha)] at h1
  rw [entry_column (column_lt b hb)] at h2
  simp only
  rw [K.p_eq, h1, h2]

/-- The probabilities of the call. -/
noncomputable abbrev q (K : Kind) (d : ℕ → ℝ≥0∞) (x y : ℕ → ℕ → ℝ≥0∞) : ℕ → ℕ × ℕ → ℝ := denseProb K d x y

private noncomputable def goal (c : LCall) (q : ℕ → ℕ × ℕ → ℝ) (u : ℕ → ℝ) (k m : ℕ) :
    ℕ × List ((ℕ × ℕ) × XR) :=
  (m + used (c.pair q k) (c.all k) (drop m u),
    rowsOf (c.all k) (val (c.pair q k) (c.all k) (drop m u)))

private noncomputable def step (c : LCall) (q : ℕ → ℕ × ℕ → ℝ) (u : ℕ → ℝ) (k : ℕ)
    (st : ℕ × List ((ℕ × ℕ) × XR)) (e : ℕ × ℕ) : ℕ × List ((ℕ × ℕ) × XR) :=
  (st.1 + (c.pair q k e (drop st.1 u)).1,
    if (c.pair q k e (drop st.1 u)).2.1 then st.2 ++ [(e, (c.pair q k e (drop st.1 u)).2.2)] else st.2)

private theorem fold_step (h : c.Is K d x y) (q : ℕ → ℕ × ℕ → ℝ) (u : ℕ → ℝ) (k m : ℕ) :
    (c.visited k).foldl (step c q u k) (m, []) = goal c q u k m := by
  have := foldl_stream (c.pair q k) u (c.visited k) (h.visited_nodup k) m []
  unfold goal
  rw [used_all, rows_all]
  exact this

private theorem step_visited {q : ℕ → ℕ × ℕ → ℝ} {u : ℕ → ℝ} {k : ℕ} {e : ℕ × ℕ} (he : e ∈ c.visited k)
    (st : ℕ × List ((ℕ × ℕ) × XR)) :
    step c q u k st e = if u st.1 < q k e then
        (st.1 + 1 + (c.weight (q k e) k e (drop (st.1 + 1) u)).1,
          st.2 ++ [(e, (c.weight (q k e) k e (drop (st.1 + 1) u)).2)])
      else (st.1 + 1, st.2) := by
  unfold step pair
  simp only [if_pos he, drop_drop]
  rw [show drop st.1 u 0 = u st.1 from by simp [drop]]
  by_cases h : u st.1 < q k e
  · simp only [h, if_true]
    rw [add_assoc]
  · simp [h]

/-- The strengths of a weighted call are accepted. -/
def Valid (c : LCall) (q : ℕ → ℕ × ℕ → ℝ) : Prop :=
  match c.src with
  | .sparse _ _ (.cremb so si) => ∀ k < c.L, ((so k).map Prod.snd).sum ≠ 0 ∧
      |((so k).map Prod.snd).sum - ((si k).map Prod.snd).sum| < 1e-6 * |((so k).map Prod.snd).sum| ∧
      ∀ e ∈ Law.pairs c.n c.s, 0 < q k e → ((so k).lookup e.1).isSome = ((si k).lookup e.2).isSome
  | _ => True

theorem cremb_layer (h : c.Is K d x y) (hv : c.Valid (denseProb K d x y)) {xs ys : ℕ → List (ℕ × XR)}
    {so si : ℕ → List (ℕ × ℝ)} (hs : c.src = .sparse xs ys (.cremb so si)) {k : ℕ} (hk : k < c.L)
    (u : ℕ → ℝ) (hu : ∀ i, 0 ≤ u i) (m : ℕ) :
    cremb_sample_layer_stream c.p_ijk (c.param k) (column c.n xs k) (column c.n ys k) c.dyad (so k)
        (si k) c.s u m
      = ((goal c (denseProb K d x y) u k m).1, .ok (goal c (denseProb K d x y) u k m).2) := by
  unfold Valid at hv
  rw [hs] at hv
  obtain ⟨v1, v2, v3⟩ := hv k hk
  unfold cremb_sample_layer_stream
  rw [total_eq, total_eq, if_pos ((WCall.test_iff _ _).2 ⟨v1, v2⟩)]
  have hf := fold_visit h hs (fun (st : ℕ × Except CrembErr (List ((ℕ × ℕ) × XR))) i j p =>
      match st.2 with
      | .error _ => st
      | .ok rows =>
        if ltb (fin (u st.1)) p then
          (st.1 + 1 + (crembWeight_stream (so k) (si k) (((so k).map Prod.snd).sum) i j p
            (u (st.1 + 1))).1,
          (crembWeight_stream (so k) (si k) (((so k).map Prod.snd).sum) i j p (u (st.1 + 1))).2.map
            fun w => rows ++ [((i, j), w)])
        else (st.1 + 1, .ok rows)) k (m, .ok [])
  refine hf.trans ?_
  rw [← fold_step h]
  refine foldl_lift (fun st : ℕ × List ((ℕ × ℕ) × XR) =>
    ((st.1, .ok st.2) : ℕ × Except CrembErr (List ((ℕ × ℕ) × XR)))) (step c (denseProb K d x y) u k) _ _
    (fun e he st => ?_) (m, [])
  rw [step_visited he]
  simp only [ltb_fin_fin, decide_eq_true_eq]
  show _ = if u st.1 < denseProb K d x y k e then _ else _
  by_cases hl : u st.1 < denseProb K d x y k e
  · rw [if_pos hl, if_pos hl]
    have hpos : 0 < denseProb K d x y k e := lt_of_le_of_lt (hu _) hl
    have hb := v3 e (visited_sub he) hpos
    unfold crembWeight_stream weight
    rw [hs]
    simp only
    cases h1 : (so k).lookup e.1 with
    | none =>
      rw [h1] at hb
      cases h2 : (si k).lookup e.2 with
      | none => rfl
      | some b => rw [h2] at hb; simp at hb
    | some a =>
      rw [h1] at hb
      cases h2 : (si k).lookup e.2 with
      | none => rw [h2] at hb; simp at hb
      | some b =>
        simp only [Option.isSome_some, Bool.or_self, if_true, total_eq]
        rfl
  · rw [if_neg hl, if_neg hl]

theorem binary_layer (h : c.Is K d x y) {xs ys : ℕ → List (ℕ × XR)}
    (hs : c.src = .sparse xs ys .none) (k : ℕ) (u : ℕ → ℝ) (m : ℕ) :
    (binary_sample_layer_stream c.p_ijk (c.param k) (column c.n xs k) (column c.n ys k) c.dyad c.s
        u m).1 = (goal c (denseProb K d x y) u k m).1 ∧
    (binary_sample_layer_stream c.p_ijk (c.param k) (column c.n xs k) (column c.n ys k) c.dyad c.s
        u m).2.map (fun e => (e, fin 1)) = (goal c (denseProb K d x y) u k m).2 := by
  unfold binary_sample_layer_stream
  have hf := fold_visit h hs (fun (st : ℕ × List (ℕ × ℕ)) i j p =>
      (st.1 + 1, if ltb (fin (u st.1)) p then st.2 ++ [(i, j)] else st.2)) k (m, [])
  rw [hf, ← fold_step h]
  have := foldl_lift (fun st : ℕ × List (ℕ × ℕ) => (st.1, st.2.map fun e => (e, fin 1)))
    (fun (st : ℕ × List (ℕ × ℕ)) (e : ℕ × ℕ) => (st.1 + 1,
      if ltb (fin (u st.1)) (fin (K.q (d k * x e.1 k * y e.2 k))) then st.2 ++ [(e.1, e.2)] else st.2))
    (step c (denseProb K d x y) u k) (c.visited k) (fun e he st => ?_) (m, [])
  · rw [show ((m, ([] : List (ℕ × ℕ)).map fun e => (e, fin 1)) : ℕ × List ((ℕ × ℕ) × XR)) = (m, [])
      from rfl] at this
    rw [this]
    exact ⟨rfl, rfl⟩
  · rw [step_visited he]
    simp only [ltb_fin_fin, decide_eq_true_eq]
    show _ = if u st.1 < denseProb K d x y k e then _ else _
    have hw : ∀ v, c.weight (denseProb K d x y k e) k e v = (0, fin 1) := by
      intro v
      unfold weight
      rw [hs]
    rw [hw]
    unfold denseProb
    by_cases hl : u st.1 < K.q (d k * x e.1 k * y e.2 k)
    · rw [if_pos hl, if_pos hl]
      simp
    · rw [if_neg hl, if_neg hl]

theorem dense_layer (h : c.Is K d x y) {xs ys : ℕ → ℕ → XR} (hs : c.src = .dense xs ys) (k : ℕ)
    (u : ℕ → ℝ) (m : ℕ) (acc : List (ℕ × ℕ × ℕ)) :
    (List.range c.n).foldl (fun st i => (List.range c.n).foldl (fun (st : ℕ × List (ℕ × ℕ × ℕ)) j =>
        if admissible i j c.s then
          (st.1 + 1, if ltb (fin (u st.1)) (c.p_ijk (c.param k) (xs i k) (ys j k) (c.dyad i j))
            then st.2 ++ [(k, i, j)] else st.2)
        else st) st) (m, acc)
      = ((goal c (denseProb K d x y) u k m).1,
          acc ++ (goal c (denseProb K d x y) u k m).2.map fun r => (k, r.1.1, r.1.2)) := by
  have hn := fold_step h (denseProb K d x y) u k m
  obtain ⟨hp, hd, h⟩ := h
  rw [hs] at h
  obtain ⟨rfl, rfl⟩ := h
  rw [foldl_order (fun (st : ℕ × List (ℕ × ℕ × ℕ)) i j =>
      (st.1 + 1, if ltb (fin (u st.1)) (c.p_ijk (c.param k) (ofENN (x i k)) (ofENN (y j k)) (c.dyad i j))
            then st.2 ++ [(k, i, j)] else st.2)) c.n c.s, ← hn]
  have hV : c.visited k = order c.n c.s := by
    unfold visited
    rw [hs]
  have := foldl_lift (fun st : ℕ × List ((ℕ × ℕ) × XR) =>
      ((st.1, acc ++ st.2.map fun r => (k, r.1.1, r.1.2)) : ℕ × List (ℕ × ℕ × ℕ)))
    (step c (denseProb K d x y) u k)
    (fun (st : ℕ × List (ℕ × ℕ × ℕ)) (e : ℕ × ℕ) =>
      (st.1 + 1, if ltb (fin (u st.1)) (c.p_ijk (c.param k) (ofENN (x e.1 k)) (ofENN (y e.2 k))
        (c.dyad e.1 e.2)) then st.2 ++ [(k, e.1, e.2)] else st.2)) (c.visited k) (fun e he st => ?_)
    (m, [])
  · rw [show ((m, acc ++ ([] : List ((ℕ × ℕ) × XR)).map fun r => (k, r.1.1, r.1.2)) :
      ℕ × List (ℕ × ℕ × ℕ)) = (m, acc) by simp] at this
    rw [← hV]
    exact this
  · rw [step_visited he]
    rw [hp, hd]
    simp only [K.p_eq, ltb_fin_fin, decide_eq_true_eq]
    have hw : ∀ v, c.weight (denseProb K d x y k e) k e v = (0, fin 1) := by
      intro v
      unfold weight
      rw [hs]
    rw [hw]
    unfold denseProb
    by_cases hl : u st.1 < K.q (d k * x e.1 k * y e.2 k)
    · rw [if_pos hl, if_pos hl]
      simp
    · rw [if_neg hl, if_neg hl]

/-! ## One call -/

/-- The results of the layers. -/
noncomputable def layer (c : LCall) (q : ℕ → ℕ × ℕ → ℝ) (u : ℕ → ℝ) (M k : ℕ) :
    List ((ℕ × ℕ) × XR) :=
  rowsOf (c.all k) fun e => val (proc (c.pair q)) (blocks c.all M) u (k, e)

private theorem layer_eq (q : ℕ → ℕ × ℕ → ℝ) (u : ℕ → ℝ) {k M : ℕ} (h : k < M) :
    c.layer q u M k = (goal c q u k (used (proc (c.pair q)) (blocks c.all k) u)).2 := by
  unfold layer goal
  exact rowsOf_congr fun e he => val_blocks _ _ u h he

private theorem used_eq (q : ℕ → ℕ × ℕ → ℝ) (u : ℕ → ℝ) (k : ℕ) :
    used (proc (c.pair q)) (blocks c.all (k + 1)) u
      = (goal c q u k (used (proc (c.pair q)) (blocks c.all k) u)).1 :=
  used_blocks_succ _ _ _ _

private theorem layers_succ (q : ℕ → ℕ × ℕ → ℝ) (u : ℕ → ℝ) (M : ℕ) :
    (List.range (M + 1)).map (c.layer q u (M + 1)) = (List.range M).map (c.layer q u M)
      ++ [(goal c q u M (used (proc (c.pair q)) (blocks c.all M) u)).2] := by
  rw [List.range_succ, List.map_append, List.map_cons, List.map_nil, layer_eq q u (Nat.lt_succ_self M)]
  congr 1
  refine List.map_congr_left fun k hk => ?_
  have := List.mem_range.1 hk
  rw [layer_eq q u this, layer_eq q u (by omega)]

theorem sample_eq (h : c.Is K d x y) (hv : c.Valid (denseProb K d x y)) (u : ℕ → ℝ)
    (hu : ∀ i, 0 ≤ u i) :
    c.sample u = (used (proc (c.pair (denseProb K d x y))) (blocks c.all c.L) u,
      .ok ((List.range c.L).map (c.layer (denseProb K d x y) u c.L))) := by
  set q := denseProb K d x y with hq
  unfold sample
  cases hs : c.src with
  | sparse xs ys w =>
    cases w with
    | none =>
      simp only
      have key : ∀ M, (List.range M).foldl (fun st k =>
          let r := binary_sample_layer_stream c.p_ijk (c.param k) (column c.n xs k) (column c.n ys k)
            c.dyad c.s u st.1
          (r.1, st.2 ++ [r.2])) ((0, []) : ℕ × List (List (ℕ × ℕ)))
          = (used (proc (c.pair q)) (blocks c.all M) u,
            ((List.range M).foldl (fun st k =>
              let r := binary_sample_layer_stream c.p_ijk (c.param k) (column c.n xs k)
                (column c.n ys k) c.dyad c.s u st.1
              (r.1, st.2 ++ [r.2])) ((0, []) : ℕ × List (List (ℕ × ℕ)))).2) ∧
          ((List.range M).foldl (fun st k =>
              let r := binary_sample_layer_stream c.p_ijk (c.param k) (column c.n xs k)
                (column c.n ys k) c.dyad c.s u st.1
              (r.1, st.2 ++ [r.2])) ((0, []) : ℕ × List (List (ℕ × ℕ)))).2.map
            (fun l => l.map fun e => (e, fin 1)) = (List.range M).map (c.layer q u M) := by
        intro M
        induction M with
        | zero => exact ⟨rfl, rfl⟩
        | succ M ih =>
          obtain ⟨i1, i2⟩ := ih
          rw [layers_succ, ← i2, used_eq]
          rw [List.range_succ, List.foldl_append, List.foldl_cons, List.foldl_nil]
          have hb := binary_layer h hs M u (used (proc (c.pair q)) (blocks c.all M) u)
          rw [i1]
          simp only
          refine ⟨Prod.ext hb.1 rfl, ?_⟩
          rw [List.map_append, List.map_cons, List.map_nil, hb.2]
      obtain ⟨k1, k2⟩ := key c.L
      unfold sample_stream
      refine Prod.ext ?_ (congrArg Except.ok k2)
      have e1 := congrArg Prod.fst k1
      exact e1
    | cremb so si =>
      simp only
      have key : ∀ M ≤ c.L, (List.range M).foldl (fun st k =>
          match st.2 with
          | .error _ => st
          | .ok layers =>
            let r := cremb_sample_layer_stream c.p_ijk (c.param k) (column c.n xs k)
              (column c.n ys k) c.dyad (so k) (si k) c.s u st.1
            (r.1, r.2.map fun l => layers ++ [l]))
          ((0, .ok []) : ℕ × Except CrembErr (List (List ((ℕ × ℕ) × XR))))
          = (used (proc (c.pair q)) (blocks c.all M) u,
            .ok ((List.range M).map (c.layer q u M))) := by
        intro M
        induction M with
        | zero => intro _; rfl
        | succ M ih =>
          intro hM
          rw [layers_succ, used_eq, List.range_succ, List.foldl_append, List.foldl_cons,
            List.foldl_nil, ih (by omega)]
          simp only
          rw [cremb_layer h hv hs (by omega) u hu]
          rfl
      exact key c.L le_rfl
  | dense xs ys =>
    simp only
    have key : ∀ M, (List.range M).foldl (fun st k =>
        (List.range c.n).foldl (fun st i =>
          (List.range c.n).foldl (fun st j =>
            if admissible i j c.s then
              (st.1 + 1, if ltb (fin (u st.1)) (c.p_ijk (c.param k) (xs i k) (ys j k) (c.dyad i j))
                then st.2 ++ [(k, i, j)] else st.2)
            else st) st) st) ((0, []) : ℕ × List (ℕ × ℕ × ℕ))
        = (used (proc (c.pair q)) (blocks c.all M) u, (List.range M).flatMap fun k =>
            (goal c q u k (used (proc (c.pair q)) (blocks c.all k) u)).2.map
              fun r => (k, r.1.1, r.1.2)) := by
      intro M
      induction M with
      | zero => rfl
      | succ M ih =>
        rw [used_eq, List.range_succ, List.foldl_append, List.foldl_cons, List.foldl_nil, ih,
          dense_layer h hs]
        simp only [List.flatMap_append, List.flatMap_cons, List.flatMap_nil, List.append_nil]
        rfl
    unfold Dense.binary_sample_tensor_stream
    rw [key]
    refine Prod.ext rfl (congrArg Except.ok (List.map_congr_left fun k hk => ?_))
    have hk := List.mem_range.1 hk
    rw [layer_eq q u hk, List.filter_flatMap, List.map_flatMap]
    have hone : ∀ k', ((((goal c q u k' (used (proc (c.pair q)) (blocks c.all k') u)).2.map
        fun r => (k', r.1.1, r.1.2)).filter fun t => t.1 == k).map
          fun t => (((t.2.1, t.2.2), fin 1) : (ℕ × ℕ) × XR))
        = if k' = k then (goal c q u k (used (proc (c.pair q)) (blocks c.all k) u)).2 else [] := by
      intro k'
      rw [List.filter_map, List.map_map]
      split
      · next hkk =>
        subst hkk
        rw [List.filter_eq_self.2 (by intro a _; simp)]
        conv_rhs => rw [← List.map_id (goal c q u k' _).2]
        refine List.map_congr_left fun r hr => ?_
        have : r.2 = fin 1 := by
          unfold goal rowsOf at hr
          rw [List.mem_filterMap] at hr
          obtain ⟨e, he, hr⟩ := hr
          split at hr
          · next ht =>
            injection hr with hr
            subst hr
            have := val_prop (c.pair q k') (fun r => r.1 = true → r.2 = fin 1) (x := e)
              (drop (used (proc (c.pair q)) (blocks c.all k') u) u) (fun j => ?_) (c.all k') he
            · exact this ht
            · have hw : ∀ p v, c.weight p k' e v = (0, fin 1) := by
                intro p v
                unfold weight
                rw [hs]
              unfold pair
              simp only [hw]
              split
              · split <;> simp
              · simp
          · cases hr
        simp only [Function.comp, id]
        exact Prod.ext rfl this.symm
      · next hkk =>
        rw [List.filter_eq_nil_iff.2 (by intro a _; simpa using hkk)]
        rfl
    rw [show (fun k' => _) = fun k' => if k' = k then
      (goal c q u k (used (proc (c.pair q)) (blocks c.all k) u)).2 else [] from funext hone]
    have hsel : ∀ (L : ℕ) (X : List ((ℕ × ℕ) × XR)), k < L →
        (List.range L).flatMap (fun k' => if k' = k then X else []) = X := by
      intro L X hL
      induction L with
      | zero => omega
      | succ L ih =>
        rw [List.range_succ, List.flatMap_append, List.flatMap_cons, List.flatMap_nil, List.append_nil]
        by_cases hkL : k < L
        · rw [ih hkL, if_neg (by omega), List.append_nil]
        · obtain rfl : k = L := by omega
          rw [if_pos rfl]
          have : (List.range k).flatMap (fun k' => if k' = k then X else []) = [] := by
            rw [List.flatMap_eq_nil_iff]
            intro a ha
            rw [if_neg (List.mem_range.1 ha).ne]
          rw [this, List.nil_append]
    exact hsel c.L _ hk

/-! ## Sequences of calls -/

/-- The pairs of all layers of a call. -/
def ix (c : LCall) : List (ℕ × (ℕ × ℕ)) := blocks c.all c.L

theorem mem_ix {x : ℕ × (ℕ × ℕ)} : x ∈ c.ix ↔ x.1 < c.L ∧ x.2 ∈ Law.pairs c.n c.s := by
  unfold ix
  rw [mem_blocks, mem_all]

theorem Is.ix_nodup (h : c.Is K d x y) : c.ix.Nodup := nodup_blocks h.all_nodup _

/-- What the calls do for one pair of one layer. -/
noncomputable def procs (c : ℕ → LCall) (q : ℕ → ℕ → ℕ × ℕ → ℝ) (t : ℕ) :
    ℕ × (ℕ × ℕ) → (ℕ → ℝ) → ℕ × (Bool × XR) := proc ((c t).pair (q t))

theorem run_eq (c : ℕ → LCall) (K : ℕ → Kind) (d : ℕ → ℕ → ℝ≥0∞) (x y : ℕ → ℕ → ℕ → ℝ≥0∞)
    (h : ∀ t, (c t).Is (K t) (d t) (x t) (y t))
    (hv : ∀ t, (c t).Valid (denseProb (K t) (d t) (x t) (y t))) (u : ℕ → ℝ) (hu : ∀ i, 0 ≤ u i)
    (m : ℕ) :
    let S := procs c fun t => denseProb (K t) (d t) (x t) (y t)
    run c u m = (used (proc S) (blocks (fun t => (c t).ix) m) u, (List.range m).map fun t =>
      .ok ((List.range (c t).L).map fun k => rowsOf ((c t).all k) fun e =>
        val (proc S) (blocks (fun t => (c t).ix) (t + 1)) u (t, k, e))) := by
  intro S
  induction m with
  | zero => rfl
  | succ m ih =>
    simp only [run, ih]
    have hs := sample_eq (h m) (hv m) (drop (used (proc S) (blocks (fun t => (c t).ix) m) u) u)
      (fun i => hu _)
    rw [show (c m).sample (fun k => u (used (proc S) (blocks (fun t => (c t).ix) m) u + k)) = _ from hs]
    refine Prod.ext ?_ ?_
    · rw [used_blocks_succ]
      rfl
    · simp only [List.range_succ, List.map_append, List.map_cons, List.map_nil]
      congr 3
      refine List.map_congr_left fun k hk => ?_
      unfold layer
      refine rowsOf_congr fun e he => ?_
      rw [val_blocks S (fun t => (c t).ix) u (Nat.lt_succ_self m)
        (mem_blocks.2 ⟨List.mem_range.1 hk, he⟩ : (k, e) ∈ (c m).ix)]
      rfl

/-! ## Exceptions -/

theorem _root_.Verif.foldl_inv {α σ τ : Type} (I : σ → τ → Prop) (f : σ → α → σ) (g : τ → α → τ) (l : List α)
    (h : ∀ e ∈ l, ∀ s t, I s t → I (f s e) (g t e)) (s : σ) (t : τ) (h0 : I s t) :
    I (l.foldl f s) (l.foldl g t) := by
  induction l generalizing s t with
  | nil => exact h0
  | cons a l ih =>
    exact ih (fun e he => h e (by simp [he])) _ _ (h a (by simp) s t h0)

/-- One strength is stored and the other is not. -/
def Lost (so si : List (ℕ × ℝ)) (e : ℕ × ℕ) : Prop :=
  (so.lookup e.1).isSome ≠ (si.lookup e.2).isSome

/-- The totals of strengths pass the assertion. -/
def Totals (so si : List (ℕ × ℝ)) : Prop :=
  (so.map Prod.snd).sum ≠ 0 ∧
    |(so.map Prod.snd).sum - (si.map Prod.snd).sum| < 1e-6 * |(so.map Prod.snd).sum|

theorem cremb_layer_any (h : c.Is K d x y) {xs ys : ℕ → List (ℕ × XR)}
    {so si : ℕ → List (ℕ × ℝ)} (hs : c.src = .sparse xs ys (.cremb so si)) (k : ℕ)
    (u : ℕ → ℝ) (m : ℕ) :
    (∃ err, (cremb_sample_layer_stream c.p_ijk (c.param k) (column c.n xs k) (column c.n ys k) c.dyad
        (so k) (si k) c.s u m).2 = .error err) ∨
    (cremb_sample_layer_stream c.p_ijk (c.param k) (column c.n xs k) (column c.n ys k) c.dyad (so k)
        (si k) c.s u m
      = ((goal c (denseProb K d x y) u k m).1, .ok (goal c (denseProb K d x y) u k m).2) ∧
      Totals (so k) (si k) ∧
      ∀ l ∈ (goal c (denseProb K d x y) u k m).2, ¬ Lost (so k) (si k) l.1) := by
  unfold cremb_sample_layer_stream
  rw [total_eq, total_eq]
  by_cases ht : |1 - ((si k).map Prod.snd).sum / ((so k).map Prod.snd).sum| < 1e-6
  swap
  · rw [if_neg ht]
    exact Or.inl ⟨_, rfl⟩
  rw [if_pos ht]
  have hf := fold_visit h hs (fun (st : ℕ × Except CrembErr (List ((ℕ × ℕ) × XR))) i j p =>
      match st.2 with
      | .error _ => st
      | .ok rows =>
        if ltb (fin (u st.1)) p then
          (st.1 + 1 + (crembWeight_stream (so k) (si k) (((so k).map Prod.snd).sum) i j p
            (u (st.1 + 1))).1,
          (crembWeight_stream (so k) (si k) (((so k).map Prod.snd).sum) i j p (u (st.1 + 1))).2.map
            fun w => rows ++ [((i, j), w)])
        else (st.1 + 1, .ok rows)) k (m, .ok [])
  have hI := foldl_inv (fun (st : ℕ × Except CrembErr (List ((ℕ × ℕ) × XR)))
      (g : ℕ × List ((ℕ × ℕ) × XR)) => (∃ err, st.2 = .error err) ∨
        (st = (g.1, .ok g.2) ∧ ∀ l ∈ g.2, ¬ Lost (so k) (si k) l.1))
    (fun (st : ℕ × Except CrembErr (List ((ℕ × ℕ) × XR))) e =>
      match st.2 with
      | .error _ => st
      | .ok rows =>
        if ltb (fin (u st.1)) (fin (K.q (d k * x e.1 k * y e.2 k))) then
          (st.1 + 1 + (crembWeight_stream (so k) (si k) (((so k).map Prod.snd).sum) e.1 e.2
            (fin (K.q (d k * x e.1 k * y e.2 k))) (u (st.1 + 1))).1,
          (crembWeight_stream (so k) (si k) (((so k).map Prod.snd).sum) e.1 e.2
            (fin (K.q (d k * x e.1 k * y e.2 k))) (u (st.1 + 1))).2.map
            fun w => rows ++ [((e.1, e.2), w)])
        else (st.1 + 1, .ok rows)) (step c (denseProb K d x y) u k) (c.visited k) ?_ (m, .ok []) (m, [])
      (Or.inr ⟨rfl, by simp⟩)
  · rw [fold_step h] at hI
    rcases hI with ⟨err, h1⟩ | ⟨h1, h2⟩
    · exact Or.inl ⟨err, (congrArg Prod.snd hf).trans h1⟩
    · exact Or.inr ⟨hf.trans h1, (WCall.test_iff _ _).1 ht, h2⟩
  · rintro e he st g (⟨err, herr⟩ | ⟨rfl, hg⟩)
    · left
      refine ⟨err, ?_⟩
      simp only [herr]
    · simp only [ltb_fin_fin, decide_eq_true_eq]
      rw [step_visited he]
      show (∃ err, (if g.1 |> u |> (· < denseProb K d x y k e) then _ else _ : ℕ × Except _ _).2 = _) ∨ _
      by_cases hl : u g.1 < denseProb K d x y k e
      · have hl' : u g.1 < K.q (d k * x e.1 k * y e.2 k) := hl
        simp only [if_pos hl, if_pos hl']
        unfold crembWeight_stream weight
        rw [hs]
        simp only
        cases h1 : (so k).lookup e.1 with
        | none =>
          cases h2 : (si k).lookup e.2 with
          | none =>
            right
            refine ⟨rfl, ?_⟩
            intro l hl
            rcases List.mem_append.1 hl with hl | hl
            · exact hg l hl
            · rw [List.mem_singleton.1 hl]
              unfold Lost
              simp [h1, h2]
          | some b => exact Or.inl ⟨.emptySelection, rfl⟩
        | some a =>
          cases h2 : (si k).lookup e.2 with
          | none => exact Or.inl ⟨.emptySelection, rfl⟩
          | some b =>
            right
            refine ⟨?_, ?_⟩
            · simp only [Option.isSome_some, Bool.or_self, if_true, total_eq]
              rfl
            · intro l hl
              rcases List.mem_append.1 hl with hl | hl
              · exact hg l hl
              · rw [List.mem_singleton.1 hl]
                unfold Lost
                simp [h1, h2]
      · have hl' : ¬ u g.1 < K.q (d k * x e.1 k * y e.2 k) := hl
        simp only [if_neg hl, if_neg hl']
        exact Or.inr ⟨by trivial, hg⟩

/-- A weighted call raises, or returns what the procedures return and no link lacks one strength. -/
theorem sample_any (h : c.Is K d x y) {xs ys : ℕ → List (ℕ × XR)} {so si : ℕ → List (ℕ × ℝ)}
    (hs : c.src = .sparse xs ys (.cremb so si)) (u : ℕ → ℝ) :
    (∃ err, (c.sample u).2 = .error err) ∨
    (c.sample u = (used (proc (c.pair (denseProb K d x y))) (blocks c.all c.L) u,
      .ok ((List.range c.L).map (c.layer (denseProb K d x y) u c.L))) ∧
      ∀ k < c.L, Totals (so k) (si k) ∧
        ∀ l ∈ c.layer (denseProb K d x y) u c.L k, ¬ Lost (so k) (si k) l.1) := by
  set q := denseProb K d x y with hq
  unfold sample
  rw [hs]
  simp only
  have key : ∀ M, (∃ err, ((List.range M).foldl (fun st k =>
      match st.2 with
      | .error _ => st
      | .ok layers =>
        let r := cremb_sample_layer_stream c.p_ijk (c.param k) (column c.n xs k)
          (column c.n ys k) c.dyad (so k) (si k) c.s u st.1
        (r.1, r.2.map fun l => layers ++ [l]))
      ((0, .ok []) : ℕ × Except CrembErr (List (List ((ℕ × ℕ) × XR))))).2 = .error err) ∨
      ((List.range M).foldl (fun st k =>
      match st.2 with
      | .error _ => st
      | .ok layers =>
        let r := cremb_sample_layer_stream c.p_ijk (c.param k) (column c.n xs k)
          (column c.n ys k) c.dyad (so k) (si k) c.s u st.1
        (r.1, r.2.map fun l => layers ++ [l]))
      ((0, .ok []) : ℕ × Except CrembErr (List (List ((ℕ × ℕ) × XR))))
      = (used (proc (c.pair q)) (blocks c.all M) u, .ok ((List.range M).map (c.layer q u M))) ∧
      ∀ k < M, Totals (so k) (si k) ∧ ∀ l ∈ c.layer q u M k, ¬ Lost (so k) (si k) l.1) := by
    intro M
    induction M with
    | zero => exact Or.inr ⟨rfl, fun k hk => absurd hk (by omega)⟩
    | succ M ih =>
      rw [layers_succ, used_eq, List.range_succ, List.foldl_append, List.foldl_cons, List.foldl_nil]
      rcases ih with ⟨err, herr⟩ | ⟨ih, ih2⟩
      · left
        refine ⟨err, ?_⟩
        simp only [herr]
      · rw [ih]
        simp only
        rcases cremb_layer_any h hs M u (used (proc (c.pair q)) (blocks c.all M) u) with
          ⟨err, herr⟩ | ⟨h1, h2, h3⟩
        · left
          refine ⟨err, ?_⟩
          rw [herr]
          rfl
        · right
          rw [h1]
          refine ⟨rfl, fun k hk => ?_⟩
          rcases Nat.lt_succ_iff_lt_or_eq.1 hk with hk' | rfl
          · refine ⟨(ih2 k hk').1, ?_⟩
            have := (ih2 k hk').2
            rwa [layer_eq q u hk', ← layer_eq q u hk] at this
          · refine ⟨h2, ?_⟩
            rw [layer_eq q u hk]
            exact h3
  exact key c.L

/-! ## Numbers read -/

/-- Both properties are stored. -/
def Stored (c : LCall) (k : ℕ) (e : ℕ × ℕ) : Prop :=
  match c.src with
  | .sparse xs ys _ => ((xs e.1).lookup k).isSome ∧ ((ys e.2).lookup k).isSome
  | .dense _ _ => True

theorem mem_visited {k : ℕ} {e : ℕ × ℕ} :
    e ∈ c.visited k ↔ e ∈ Law.pairs c.n c.s ∧ c.Stored k e := by
  unfold visited Stored
  cases c.src with
  | sparse xs ys w =>
    simp only
    rw [mem_pairOrder, stored_iff, stored_iff, lookup_column, lookup_column, admissible_iff,
      show e = (e.1, e.2) from rfl, Law.mem_pairs]
    by_cases h1 : e.1 < c.n <;> by_cases h2 : e.2 < c.n <;> (simp [h1, h2]; try tauto)
  | dense xs ys =>
    simp only [and_true]
    exact mem_order

/-- A number is read for the weight of a link. -/
def draws (c : LCall) (k : ℕ) (e : ℕ × ℕ) : Bool :=
  match c.src with
  | .sparse _ _ (.cremb so si) => ((so k).lookup e.1).isSome && ((si k).lookup e.2).isSome
  | _ => false

theorem weight_fst (q : ℝ) (k : ℕ) (e : ℕ × ℕ) (u : ℕ → ℝ) :
    (c.weight q k e u).1 = if c.draws k e then 1 else 0 := by
  unfold weight draws
  cases c.src with
  | dense xs ys => rfl
  | sparse xs ys w =>
    cases w with
    | none => rfl
    | cremb so si =>
      simp only
      split
      · next a b h1 h2 => simp [h1, h2]
      · next h =>
        rw [if_neg]
        intro hb
        obtain ⟨h1, h2⟩ := Bool.and_eq_true_iff.1 hb
        obtain ⟨a, ha⟩ := Option.isSome_iff_exists.1 h1
        obtain ⟨b, hb⟩ := Option.isSome_iff_exists.1 h2
        exact h a b ha hb

theorem used_visited (q : ℕ → ℕ × ℕ → ℝ) (k : ℕ) (l : List (ℕ × ℕ)) (hl : l.Nodup)
    (hv : ∀ e ∈ l, e ∈ c.visited k) (u : ℕ → ℝ) :
    used (c.pair q k) l u
      = l.length + (rowsOf l (val (c.pair q k) l u)).countP fun r => c.draws k r.1 := by
  induction l generalizing u with
  | nil => rfl
  | cons a l ih =>
    rw [List.nodup_cons] at hl
    have hc : rowsOf l (val (c.pair q k) (a :: l) u)
        = rowsOf l (val (c.pair q k) l (drop (c.pair q k a u).1 u)) := by
      refine rowsOf_congr fun e he => ?_
      simp only [val]
      rw [if_neg fun h : e = a => hl.1 (h ▸ he)]
    have hr : rowsOf (a :: l) (val (c.pair q k) (a :: l) u)
        = (if (c.pair q k a u).2.1 then [(a, (c.pair q k a u).2.2)] else [])
          ++ rowsOf l (val (c.pair q k) l (drop (c.pair q k a u).1 u)) := by
      rw [← hc]
      unfold rowsOf
      rw [List.filterMap_cons]
      simp only [val, if_true]
      cases (c.pair q k a u).2.1 <;> simp
    rw [hr, used, ih hl.2 (fun e he => hv e (by simp [he])), List.countP_append, List.length_cons]
    have : (c.pair q k a u).1 = 1 + (if (c.pair q k a u).2.1 then [(a, (c.pair q k a u).2.2)]
        else []).countP fun r => c.draws k r.1 := by
      unfold pair
      rw [if_pos (hv a (by simp))]
      by_cases h0 : u 0 < q k a
      · simp only [h0, if_true]
        rw [weight_fst]
        cases hd : c.draws k a <;> simp [hd]
      · simp [h0]
    omega

open Classical in
/-- How many numbers one call reads. -/
theorem used_call (h : c.Is K d x y) (q : ℕ → ℕ × ℕ → ℝ) (u : ℕ → ℝ) (M : ℕ) :
    used (proc (c.pair q)) (blocks c.all M) u = ∑ k ∈ Finset.range M,
      (((Law.pairs c.n c.s).filter (c.Stored k)).card
        + (c.layer q u M k).countP fun r => c.draws k r.1) := by
  have hcard : ∀ k, ((Law.pairs c.n c.s).filter (c.Stored k)).card = (c.visited k).length := by
    intro k
    rw [← List.toFinset_card_of_nodup (h.visited_nodup k)]
    congr 1
    ext e
    rw [Finset.mem_filter, List.mem_toFinset, mem_visited]
  induction M with
  | zero => rfl
  | succ M ih =>
    rw [used_eq, Finset.sum_range_succ]
    have h1 : ∑ k ∈ Finset.range M, (((Law.pairs c.n c.s).filter (c.Stored k)).card
        + (c.layer q u (M + 1) k).countP fun r => c.draws k r.1)
        = used (proc (c.pair q)) (blocks c.all M) u := by
      rw [ih]
      refine Finset.sum_congr rfl fun k hk => ?_
      have := Finset.mem_range.1 hk
      rw [layer_eq q u this, layer_eq q u (by omega)]
    rw [h1, layer_eq q u (Nat.lt_succ_self M)]
    unfold goal
    simp only
    rw [used_all, rows_all, used_visited q M _ (h.visited_nodup M) (fun e he => he), hcard]

end LCall

end Layer

end Verif
