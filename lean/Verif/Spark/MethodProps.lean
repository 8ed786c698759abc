import Verif.Spark.Method
import Verif.Spark.Props
import Verif.Spark.ConfProps
import Verif.Sampled.Props

/-!
# C80: `log_likelihood`, `confusion_matrix` and `sample` of the single-layer spark ensembles
-/

namespace Verif

noncomputable section

open XR Spec DiGraphEnsemble MeasureTheory
open scoped ENNReal

namespace Spark

namespace Method

open Verif.Method (Arg LikeErr Stored)
open Layer (Kind)
open Sampled (Ref Adj Names boolRows floatRows coo_bool coo_float bytes_ok names_range
  names_ref ids)
open Graph (coo get_num_bytes validDtype)

/-! ## The models -/

/-- `FitnessModel` and `ScaleInvariantModel` of the spark backend, fitted if `d` is given. -/
def singleObj (K : Kind) (n p : ℕ) (d : Option ℝ≥0∞) (x y : ℕ → ℝ≥0∞) (w : ℕ → ℕ → XR) (s : Bool) :
    Obj where
  p_ij := match K with
    | .fit => Dense.FitnessModel.p_ij
    | .inv => Dense.ScaleInvariantModel.p_ij
  logp := match K with
    | .fit => Dense.FitnessModel.logp
    | .inv => Dense.ScaleInvariantModel.logp
  log1mp := match K with
    | .fit => Dense.FitnessModel.log1mp
    | .inv => Spark.ScaleInvariantModel.log1mp
  num_vertices := n
  p_blocks := p
  prop_out := Ens.arr x
  prop_in := Ens.arr y
  prop_dyad := w
  selfloops := s
  param := d.map ofENN

/-- Probability of a link. -/
def linkProb (K : Kind) (d : ℝ≥0∞) (x y : ℕ → ℝ≥0∞) (e : ℕ × ℕ) : ℝ := K.q (d * x e.1 * y e.2)

theorem single_is (K : Kind) (n p : ℕ) (d : ℝ≥0∞) (x y : ℕ → ℝ≥0∞) (w : ℕ → ℕ → XR) (s : Bool) :
    ((singleObj K n p (some d) x y w s).ens (ofENN d)).Is (linkProb K d x y) := by
  cases K
  · exact Ens.Is.denseFit d x y w
  · exact Ens.Is.sparkInv d x y w

theorem single_dyadFree (K : Kind) (n p : ℕ) (d : ℝ≥0∞) (x y : ℕ → ℝ≥0∞) (w : ℕ → ℕ → XR)
    (s : Bool) : DyadFree ((singleObj K n p (some d) x y w s).ens (ofENN d)) := by
  intro i j a b
  cases K <;> exact ⟨rfl, rfl, rfl⟩

theorem linkProb_mem (K : Kind) (d : ℝ≥0∞) (x y : ℕ → ℝ≥0∞) (e : ℕ × ℕ) :
    0 ≤ linkProb K d x y e ∧ linkProb K d x y e ≤ 1 := K.q_mem _

/-! ## The graph argument -/

theorem adjOf_ok {n : ℕ} {g : Arg} (hg : g ≠ .other) (hs : g.shape = (n, n))
    (hz : g.NoStoredZeros n) :
    ∃ link, adjOf n g = .ok link ∧ ∀ i < n, ∀ j < n, link i j = true ↔ (i, j) ∈ g.links n := by
  obtain ⟨l, hl, hl'⟩ := Verif.Method.adjOf_spec .sparse g n hg (fun _ => hz)
  refine ⟨l, ?_, fun i hi j hj => ?_⟩
  · unfold adjOf
    rw [hl]
    dsimp only
    rw [if_neg (by simpa using hs)]
  · rw [hl' i hi j, Verif.Method.Arg.mem_links]
    simp [hi, hj]

theorem adjOf_other (n : ℕ) : adjOf n .other = .error .badInput := rfl

theorem adjOf_shape {n : ℕ} {g : Arg} (hg : g ≠ .other) (hs : g.shape ≠ (n, n)) :
    adjOf n g = .error .badShape := by
  have : ∃ l, Verif.Method.adjOf .sparse g = .ok (g.shape, l) := by
    cases g with
    | other => exact absurd rfl hg
    | graph k G => exact ⟨_, rfl⟩
    | sparse m => exact ⟨_, rfl⟩
    | ndarray s a => exact ⟨_, rfl⟩
  obtain ⟨l, hl⟩ := this
  unfold adjOf
  rw [hl]
  dsimp only
  rw [if_pos hs]

/-! ## `log_likelihood` -/

/-- **C80**: the only outcome of `log_likelihood`, whatever the order in which blocks are summed, is
the logarithm of the probability of the graph in the ensemble, with or without self loops as asked
by the argument (by default as in the ensemble). -/
theorem C80_likelihood (K : Kind) (n : ℕ) {p : ℕ} (hp : 0 < p) (d : ℝ≥0∞) (x y : ℕ → ℝ≥0∞)
    (w : ℕ → ℕ → XR) (s : Bool) (g : Arg) (hg : g ≠ .other) (hs : g.shape = (n, n))
    (hz : g.NoStoredZeros n) (sl : Option Bool) (r : Except LikeErr XR) :
    LogLikelihood (singleObj K n p (some d) x y w s) g sl r ↔
      r = .ok (elog (Law.prob (Law.pairs n (sl.getD s)) (linkProb K d x y) (g.links n))) := by
  obtain ⟨link, hl, hlink⟩ := adjOf_ok hg hs hz
  have hE := single_is K n p d x y w s
  have hval : ∀ v, Folds (· + ·) 0 (likelihoodTasks ((singleObj K n p (some d) x y w s).ens (ofENN d))
      n p link (sl.getD s)) v →
      v = elog (Law.prob (Law.pairs n (sl.getD s)) (linkProb K d x y) (g.links n)) := by
    intro v hv
    rw [C43_log_likelihood hE.coherent (single_dyadFree K n p d x y w s) hp link _ hv,
      ← (C12_formula hE n (sl.getD s) (g.links n)).1]
    refine Verif.Method.likelihood_congr hE.coherent (fun i hi j hj => ?_)
    rw [Bool.eq_iff_iff, hlink i hi j hj]
    unfold linkOf
    rw [decide_eq_true_iff]
  unfold LogLikelihood
  show (match adjOf n g with
    | .error e => r = .error e
    | .ok link => ∃ v, Folds (· + ·) 0 (likelihoodTasks
        ((singleObj K n p (some d) x y w s).ens (ofENN d)) n p link (sl.getD s)) v ∧ r = .ok v) ↔ _
  rw [hl]
  dsimp only
  constructor
  · rintro ⟨v, hv, rfl⟩
    rw [hval v hv]
  · rintro rfl
    have hf := folds_fold (· + ·) (0 : XR) (likelihoodTasks
      ((singleObj K n p (some d) x y w s).ens (ofENN d)) n p link (sl.getD s))
    exact ⟨_, hf, by rw [hval _ hf]⟩

/-- **C80**: the exceptions of `log_likelihood`. -/
theorem C80_likelihood_errors (o : Obj) (g : Arg) (sl : Option Bool) (r : Except LikeErr XR) :
    (o.param = none → (LogLikelihood o g sl r ↔ r = .error .notFitted)) ∧
    (o.param ≠ none → g = .other → (LogLikelihood o g sl r ↔ r = .error .badInput)) ∧
    (o.param ≠ none → g ≠ .other → g.shape ≠ (o.num_vertices, o.num_vertices) →
      (LogLikelihood o g sl r ↔ r = .error .badShape)) ∧
    (o.param ≠ none → g ≠ .other → g.shape = (o.num_vertices, o.num_vertices) →
      ∀ e, ¬ LogLikelihood o g sl (.error e)) := by
  refine ⟨fun h => ?_, fun h hg => ?_, fun h hg hs => ?_, fun h hg hs e => ?_⟩
  · unfold LogLikelihood; rw [h]
  · obtain ⟨θ, hθ⟩ := Option.ne_none_iff_exists'.1 h
    unfold LogLikelihood; rw [hθ, hg]; rfl
  · obtain ⟨θ, hθ⟩ := Option.ne_none_iff_exists'.1 h
    unfold LogLikelihood; rw [hθ]
    dsimp only
    rw [adjOf_shape hg hs]
  · obtain ⟨θ, hθ⟩ := Option.ne_none_iff_exists'.1 h
    unfold LogLikelihood; rw [hθ]
    dsimp only
    have : ∃ l, Verif.Method.adjOf .sparse g = .ok (g.shape, l) := by
      cases g with
      | other => exact absurd rfl hg
      | graph k G => exact ⟨_, rfl⟩
      | sparse m => exact ⟨_, rfl⟩
      | ndarray s a => exact ⟨_, rfl⟩
    obtain ⟨l, hl⟩ := this
    have : adjOf o.num_vertices g = .ok l := by
      unfold adjOf; rw [hl]; dsimp only; rw [if_neg (by simpa using hs)]
    rw [this]
    rintro ⟨v, -, h⟩
    cases h

/-- **C80** fails for sparse matrices that store zeros: with link probability zero the graph without
links is certain, but an entry stored with value zero is counted as a link. -/
theorem C80_stored_zeros_violated (K : Kind) (w : ℕ → ℕ → XR) :
    let o := singleObj K 1 1 (some 0) (fun _ => 1) (fun _ => 1) w true
    let g := Arg.sparse Verif.Method.storedZero
    (∀ i j, ¬ g.IsLink i j) ∧
    Law.prob (Law.pairs 1 true) (linkProb K 0 (fun _ => 1) (fun _ => 1)) (g.links 1) = 1 ∧
    ∀ r, LogLikelihood o g none r ↔ r = .ok ninf := by
  intro o g
  have hno : ∀ i j, ¬ g.IsLink i j := by
    intro i j
    simp only [g, Arg.IsLink, Stored.val, Verif.Method.storedZero, not_not]
    by_cases h : (0 : ℕ) = j <;> simp [h]
  have hlk : g.links 1 = ∅ := by
    ext ⟨i, j⟩
    rw [Verif.Method.Arg.mem_links]
    simp [hno]
  have hq : ∀ e, linkProb K 0 (fun _ => 1) (fun _ => 1) e = 0 := by
    intro e; unfold linkProb; rw [zero_mul, zero_mul, K.q_zero]
  refine ⟨hno, ?_, fun r => ?_⟩
  · rw [hlk]
    unfold Law.prob
    simp [hq]
  -- the same outcome as for the graph with the link `(0, 0)`
  have key := C80_likelihood K 1 one_pos 0 (fun _ => 1) (fun _ => 1) w true (.graph 1 {(0, 0)})
    nofun rfl trivial none r
  have hval : elog (Law.prob (Law.pairs 1 ((none : Option Bool).getD true))
      (linkProb K 0 (fun _ => 1) (fun _ => 1)) ((Arg.graph 1 {(0, 0)}).links 1)) = ninf := by
    have : Law.prob (Law.pairs 1 true) (linkProb K 0 (fun _ => 1) (fun _ => 1))
        ((Arg.graph 1 {(0, 0)}).links 1) = 0 := by
      unfold Law.prob
      refine Finset.prod_eq_zero (i := (0, 0)) (by decide) ?_
      rw [if_pos, hq]
      rw [Verif.Method.Arg.mem_links]
      exact ⟨by decide, by simp [Arg.IsLink]⟩
    show elog (Law.prob (Law.pairs 1 true) _ _) = _
    rw [this]; exact elog_zero
  rw [hval] at key
  rw [← key]
  have hl : ∀ i < 1, ∀ j < 1, ((Verif.Method.storedZero.row i).map Prod.fst).contains j
      = decide ((i, j) ∈ ({(0, 0)} : Finset (ℕ × ℕ))) := by
    intro i hi j hj
    obtain rfl : i = 0 := by omega
    obtain rfl : j = 0 := by omega
    simp [Verif.Method.storedZero]
  show (∃ v, Folds (· + ·) 0 (likelihoodTasks (o.ens (ofENN 0)) 1 1
      (fun i j => ((Verif.Method.storedZero.row i).map Prod.fst).contains j) true) v ∧ r = .ok v) ↔
    (∃ v, Folds (· + ·) 0 (likelihoodTasks (o.ens (ofENN 0)) 1 1
      (fun i j => decide ((i, j) ∈ ({(0, 0)} : Finset (ℕ × ℕ)))) true) v ∧ r = .ok v)
  have hc := (single_is K 1 1 0 (fun _ => 1) (fun _ => 1) w true).coherent
  have hd := single_dyadFree K 1 1 0 (fun _ => 1) (fun _ => 1) w true
  have hex : ∀ link link' : ℕ → ℕ → Bool, (∀ i < 1, ∀ j < 1, link i j = link' i j) →
      (∃ v, Folds (· + ·) 0 (likelihoodTasks (o.ens (ofENN 0)) 1 1 link true) v ∧ r = .ok v) →
      ∃ v, Folds (· + ·) 0 (likelihoodTasks (o.ens (ofENN 0)) 1 1 link' true) v ∧ r = .ok v := by
    rintro link link' h ⟨v, hv, rfl⟩
    have hf := folds_fold (· + ·) (0 : XR) (likelihoodTasks (o.ens (ofENN 0)) 1 1 link' true)
    refine ⟨_, hf, ?_⟩
    rw [C43_log_likelihood hc hd one_pos link true hv,
      C43_log_likelihood hc hd one_pos link' true hf, Verif.Method.likelihood_congr hc h]
  exact ⟨hex _ _ hl, hex _ _ (fun i hi j hj => (hl i hi j hj).symm)⟩

/-- A fitted model with two vertices, a graph, and the request to count self loops. -/
example : (Arg.ndarray (2, 2) (fun i j => if i < j then 3 else 0)).shape = (2, 2) ∧
    (Arg.ndarray (2, 2) (fun i j => if i < j then 3 else 0)).NoStoredZeros 2 ∧
    (Arg.ndarray (2, 2) (fun i j => if i < j then 3 else 0)).links 2 = {(0, 1)} := by
  refine ⟨rfl, trivial, ?_⟩
  ext ⟨i, j⟩
  rw [Verif.Method.Arg.mem_links]
  simp only [Arg.IsLink, Finset.mem_singleton, Prod.mk.injEq]
  constructor
  · rintro ⟨⟨hi, hj⟩, h⟩
    have : i < j := by by_contra hc; simp [hc] at h
    omega
  · rintro ⟨rfl, rfl⟩
    norm_num

/-! ## `confusion_matrix` -/

/-- The four numbers at threshold `t`, for the graph `G` and probabilities `q`. -/
def CountsAt (n : ℕ) (s : Bool) (q : ℕ × ℕ → ℝ) (G : Finset (ℕ × ℕ)) (t : ℝ) (c : Conf) (k : ℕ) :
    Prop :=
  c.tp k = howMany n s (fun e => e ∈ G ∧ t ≤ q e) ∧
  c.fn k = howMany n s (fun e => e ∈ G ∧ q e < t) ∧
  c.fp k = howMany n s (fun e => e ∉ G ∧ t ≤ q e) ∧
  c.tn k = howMany n s (fun e => e ∉ G ∧ q e < t)

theorem leb_fin (a b : ℝ) : leb (fin a) (fin b) = true ↔ a ≤ b := by
  simp [leb]

theorem counts_at {E : Ens} (hd : DyadFree E) {q : ℕ × ℕ → ℝ} (hq : ∀ i j, E.p i j = fin (q (i, j)))
    {n p : ℕ} (hp : 0 < p) (s : Bool) (G : Finset (ℕ × ℕ)) (link : ℕ → ℕ → Bool)
    (hG : ∀ i < n, ∀ j < n, link i j = true ↔ (i, j) ∈ G) (K : ℕ) (th : ℕ → ℝ) {c : Conf}
    (h : Folds addConf Conf.zero (confusionTasks E n p K (fun k => fin (th k)) link s) c) (k : ℕ)
    (hk : k < K) : CountsAt n s q G (th k) c k := by
  have key := C44_counts hd hp s G link hG K (fun k => fin (th k)) h k hk
  simp only [hq, leb_fin, not_le, Prod.mk.eta] at key
  exact key

/-- **C80**: the only outcome of `confusion_matrix` with given thresholds are the numbers of true and
false positives and negatives among the pairs that can be linked (with or without self loops as
asked by the argument), a pair being positive if its probability reaches the threshold. -/
theorem C80_confusion (K : Kind) (n : ℕ) {p : ℕ} (hp : 0 < p) (d : ℝ≥0∞) (x y : ℕ → ℝ≥0∞)
    (w : ℕ → ℕ → XR) (s : Bool) (g : Arg) (hg : g ≠ .other) (hs : g.shape = (n, n))
    (hz : g.NoStoredZeros n) (m : ℕ) (th : ℕ → ℝ) (sl : Option Bool) :
    let o := singleObj K n p (some d) x y w s
    (∃ r, Confusion o g (.array m (fun k => fin (th k))) sl r) ∧
    ∀ r, Confusion o g (.array m (fun k => fin (th k))) sl r →
      ∃ c, r = .ok (m, c) ∧ ∀ k < m,
        CountsAt n (sl.getD s) (linkProb K d x y) (g.links n) (th k) c k := by
  intro o
  obtain ⟨link, hl, hlink⟩ := adjOf_ok hg hs hz
  have e : ∀ r, Confusion o g (.array m (fun k => fin (th k))) sl r ↔ ∃ c, Folds addConf Conf.zero
      (confusionTasks (o.ens (ofENN d)) n p m (fun k => fin (th k)) link (sl.getD s)) c ∧
      r = .ok (m, c) := by
    intro r
    show (match adjOf n g with
      | .error .badShape => r = .error .badShape
      | .error _ => r = .error .badInput
      | .ok link => ∃ c, Folds addConf Conf.zero
          (confusionTasks (o.ens (ofENN d)) n p m (fun k => fin (th k)) link (sl.getD s)) c ∧
          r = .ok (m, c)) ↔ _
    rw [hl]
  refine ⟨⟨_, (e _).2 ⟨_, folds_fold _ _ _, rfl⟩⟩, fun r hr => ?_⟩
  obtain ⟨c, hc, rfl⟩ := (e r).1 hr
  exact ⟨c, rfl, fun k hk => counts_at (single_dyadFree K n p d x y w s)
    (fun i j => (single_is K n p d x y w s).p_eq i j) hp _ _ link hlink m th hc k hk⟩

/-- **C80**: the exceptions of `confusion_matrix`, in the order in which they are raised. -/
theorem C80_confusion_errors (o : Obj) (g : Arg) (th : ThArg) (sl : Option Bool)
    (r : Except ConfErr (ℕ × Conf)) :
    (o.param = none → (Confusion o g th sl r ↔ r = .error .notFitted)) ∧
    (o.param ≠ none → th = .other →
      (Confusion o g th sl r ↔ r = .error (.thresholds .valueError))) ∧
    (o.param ≠ none → o.num_vertices = 0 → (th = .none ∨ ∃ k, th = .int k) →
      (Confusion o g th sl r ↔ r = .error .empty)) ∧
    (∀ m t, o.param ≠ none → th = .array m t → g = .other →
      (Confusion o g th sl r ↔ r = .error .badInput)) ∧
    (∀ m t, o.param ≠ none → th = .array m t → g ≠ .other →
      g.shape ≠ (o.num_vertices, o.num_vertices) →
      (Confusion o g th sl r ↔ r = .error .badShape)) := by
  refine ⟨fun h => ?_, fun h ht => ?_, fun h hn ht => ?_, fun m t h ht hg => ?_,
    fun m t h ht hg hs => ?_⟩
  · unfold Confusion; rw [h]
  · obtain ⟨θ, hθ⟩ := Option.ne_none_iff_exists'.1 h
    unfold Confusion; rw [hθ, ht]
    dsimp only
    have : thresholds (pRange o θ) .other = .error (.thresholds .valueError) := by
      unfold thresholds; cases pRange o θ <;> rfl
    rw [this]
  · obtain ⟨θ, hθ⟩ := Option.ne_none_iff_exists'.1 h
    have hr : pRange o θ = none := by
      unfold pRange elements; rw [hn]; rfl
    unfold Confusion; rw [hθ]
    dsimp only
    rw [hr]
    rcases ht with rfl | ⟨k, rfl⟩ <;> rfl
  · obtain ⟨θ, hθ⟩ := Option.ne_none_iff_exists'.1 h
    unfold Confusion; rw [hθ, ht]
    dsimp only
    have : thresholds (pRange o θ) (.array m t) = .ok (m, t) := by
      unfold thresholds; cases pRange o θ <;> rfl
    rw [this, hg]
    rfl
  · obtain ⟨θ, hθ⟩ := Option.ne_none_iff_exists'.1 h
    unfold Confusion; rw [hθ, ht]
    dsimp only
    have : thresholds (pRange o θ) (.array m t) = .ok (m, t) := by
      unfold thresholds; cases pRange o θ <;> rfl
    rw [this]
    dsimp only
    rw [adjOf_shape hg hs]

/-! ### Automatic thresholds -/

theorem ofENN_lt {a b : ℝ≥0∞} : ltb (ofENN a) (ofENN b) = true ↔ a < b := by
  unfold ofENN
  by_cases ha : a = ⊤
  · subst ha
    by_cases hb : b = ⊤
    · simp [hb, ltb]
    · simp [hb, ltb]
  · by_cases hb : b = ⊤
    · subst hb; simp [ha, ltb, lt_top_iff_ne_top]
    · simp [ha, hb, ltb, ENNReal.toReal_lt_toReal]

theorem listMax_spec (l : List ℝ≥0∞) (h : l ≠ []) :
    ∃ a ∈ l, listMax (l.map ofENN) = some (ofENN a) ∧ ∀ b ∈ l, b ≤ a := by
  cases l with
  | nil => exact absurd rfl h
  | cons c t =>
    have key : ∀ (t : List ℝ≥0∞) (c : ℝ≥0∞), ∃ a ∈ c :: t,
        (t.map ofENN).foldl (fun m v => if ltb m v then v else m) (ofENN c) = ofENN a ∧
        ∀ b ∈ c :: t, b ≤ a := by
      intro t
      induction t with
      | nil => intro c; exact ⟨c, by simp, rfl, by simp⟩
      | cons v t ih =>
        intro c
        rw [List.map_cons, List.foldl_cons]
        by_cases hlt : c < v
        · rw [if_pos (ofENN_lt.2 hlt)]
          obtain ⟨a, ha, he, hb⟩ := ih v
          refine ⟨a, List.mem_cons_of_mem _ ha, he, fun b hb' => ?_⟩
          rcases List.mem_cons.1 hb' with rfl | hb'
          · exact hlt.le.trans (hb v (by simp))
          · exact hb b hb'
        · rw [if_neg (by rw [ofENN_lt]; exact hlt)]
          obtain ⟨a, ha, he, hb⟩ := ih c
          refine ⟨a, ?_, he, fun b hb' => ?_⟩
          · rcases List.mem_cons.1 ha with rfl | ha
            · simp
            · simp [ha]
          · rcases List.mem_cons.1 hb' with rfl | hb'
            · exact hb b (by simp)
            · rcases List.mem_cons.1 hb' with rfl | hb'
              · exact (not_lt.1 hlt).trans (hb c (by simp))
              · exact hb b (by simp [hb'])
    obtain ⟨a, ha, he, hb⟩ := key t c
    exact ⟨a, ha, congrArg some he, hb⟩

theorem listMin_spec (l : List ℝ≥0∞) (h : l ≠ []) :
    ∃ a ∈ l, listMin (l.map ofENN) = some (ofENN a) ∧ ∀ b ∈ l, a ≤ b := by
  cases l with
  | nil => exact absurd rfl h
  | cons c t =>
    have key : ∀ (t : List ℝ≥0∞) (c : ℝ≥0∞), ∃ a ∈ c :: t,
        (t.map ofENN).foldl (fun m v => if ltb v m then v else m) (ofENN c) = ofENN a ∧
        ∀ b ∈ c :: t, a ≤ b := by
      intro t
      induction t with
      | nil => intro c; exact ⟨c, by simp, rfl, by simp⟩
      | cons v t ih =>
        intro c
        rw [List.map_cons, List.foldl_cons]
        by_cases hlt : v < c
        · rw [if_pos (ofENN_lt.2 hlt)]
          obtain ⟨a, ha, he, hb⟩ := ih v
          refine ⟨a, List.mem_cons_of_mem _ ha, he, fun b hb' => ?_⟩
          rcases List.mem_cons.1 hb' with rfl | hb'
          · exact (hb v (by simp)).trans hlt.le
          · exact hb b hb'
        · rw [if_neg (by rw [ofENN_lt]; exact hlt)]
          obtain ⟨a, ha, he, hb⟩ := ih c
          refine ⟨a, ?_, he, fun b hb' => ?_⟩
          · rcases List.mem_cons.1 ha with rfl | ha
            · simp
            · simp [ha]
          · rcases List.mem_cons.1 hb' with rfl | hb'
            · exact hb b (by simp)
            · rcases List.mem_cons.1 hb' with rfl | hb'
              · exact (hb c (by simp)).trans (not_lt.1 hlt)
              · exact hb b (by simp [hb'])
    obtain ⟨a, ha, he, hb⟩ := key t c
    exact ⟨a, ha, congrArg some he, hb⟩

theorem elements_arr (n : ℕ) (x : ℕ → ℝ≥0∞) :
    elements n (Ens.arr x) = ((List.range n).map x).map ofENN := by
  unfold elements
  rw [List.map_map]
  rfl

theorem q_mono (K : Kind) {s t : ℝ≥0∞} (h : s ≤ t) : K.q s ≤ K.q t := by
  by_cases ht : t = ⊤
  · have : K.q t = 1 := by
      subst ht
      cases K
      · show fitProb ⊤ = 1
        simp [fitProb]
      · show invProb ⊤ = 1
        simp [invProb]
    rw [this]
    exact (K.q_mem s).2
  · have hs : s ≠ ⊤ := ne_top_of_le_ne_top ht h
    have hle : s.toReal ≤ t.toReal := (ENNReal.toReal_le_toReal hs ht).2 h
    have h0 : 0 ≤ s.toReal := ENNReal.toReal_nonneg
    cases K
    · show fitProb s ≤ fitProb t
      unfold fitProb
      rw [if_neg hs, if_neg ht, div_le_div_iff₀ (by linarith) (by linarith)]
      nlinarith
    · show invProb s ≤ invProb t
      unfold invProb
      rw [if_neg hs, if_neg ht]
      have := Real.exp_le_exp.2 (neg_le_neg hle)
      linarith

/-- **C80**: `p_min` and `p_max` are the smallest and the largest probability of a pair of
vertices. -/
theorem C80_range (K : Kind) (n p : ℕ) (hn : 0 < n) (d : ℝ≥0∞) (x y : ℕ → ℝ≥0∞) (w : ℕ → ℕ → XR)
    (s : Bool) :
    ∃ lo hi, pRange (singleObj K n p (some d) x y w s) (ofENN d) = some (lo, hi) ∧
      (∃ i < n, ∃ j < n, linkProb K d x y (i, j) = lo) ∧
      (∃ i < n, ∃ j < n, linkProb K d x y (i, j) = hi) ∧
      ∀ i < n, ∀ j < n, lo ≤ linkProb K d x y (i, j) ∧ linkProb K d x y (i, j) ≤ hi := by
  have hne : ∀ x : ℕ → ℝ≥0∞, (List.range n).map x ≠ [] := by
    intro x h
    rw [List.map_eq_nil_iff, List.range_eq_nil] at h
    omega
  obtain ⟨a, ha, hae, ham⟩ := listMax_spec _ (hne x)
  obtain ⟨b, hb, hbe, hbm⟩ := listMax_spec _ (hne y)
  obtain ⟨a', ha', hae', ham'⟩ := listMin_spec _ (hne x)
  obtain ⟨b', hb', hbe', hbm'⟩ := listMin_spec _ (hne y)
  rw [← elements_arr] at hae hbe hae' hbe'
  simp only [List.mem_map, List.mem_range] at ha hb ha' hb'
  obtain ⟨i, hi, rfl⟩ := ha
  obtain ⟨j, hj, rfl⟩ := hb
  obtain ⟨i', hi', rfl⟩ := ha'
  obtain ⟨j', hj', rfl⟩ := hb'
  have hp : ∀ i j, ((singleObj K n p (some d) x y w s).p_ij (ofENN d) (ofENN (x i)) (ofENN (y j))
      nan).toReal = linkProb K d x y (i, j) := by
    intro i j
    cases K
    · exact congrArg XR.toReal (dense_fit_p_ij d (x i) (y j) nan)
    · exact congrArg XR.toReal (dense_inv_p_ij d (x i) (y j) nan)
  refine ⟨linkProb K d x y (i', j'), linkProb K d x y (i, j), ?_, ⟨i', hi', j', hj', rfl⟩,
    ⟨i, hi, j, hj, rfl⟩, fun k hk l hl => ⟨?_, ?_⟩⟩
  · rw [← hp, ← hp]
    show (listMax (elements n (Ens.arr x)) >>= fun xmax => listMax (elements n (Ens.arr y)) >>=
      fun ymax => listMin (elements n (Ens.arr x)) >>= fun xmin =>
      listMin (elements n (Ens.arr y)) >>= fun ymin => some _) = _
    rw [hae, hbe, hae', hbe']
    rfl
  · exact q_mono K (mul_le_mul' (mul_le_mul' le_rfl (ham' _ (List.mem_map.2 ⟨k, by simpa, rfl⟩)))
      (hbm' _ (List.mem_map.2 ⟨l, by simpa, rfl⟩)))
  · exact q_mono K (mul_le_mul' (mul_le_mul' le_rfl (ham _ (List.mem_map.2 ⟨k, by simpa, rfl⟩)))
      (hbm _ (List.mem_map.2 ⟨l, by simpa, rfl⟩)))

/-- **C80**: when every pair can be linked, the automatic choice works; all the thresholds lie between
powers of the smallest and the largest probability (the exponent is the natural logarithm of ten, as
natural logarithms are passed to `np.logspace`), and the counts are those of the thresholds. -/
theorem C80_auto_partial (K : Kind) (n : ℕ) (hn : 0 < n) {p : ℕ} (hp : 0 < p) (d : ℝ≥0∞)
    (x y : ℕ → ℝ≥0∞) (w : ℕ → ℕ → XR) (s : Bool)
    (hpos : ∀ i < n, ∀ j < n, 0 < linkProb K d x y (i, j))
    (g : Arg) (hg : g ≠ .other) (hs : g.shape = (n, n)) (hz : g.NoStoredZeros n)
    (sl : Option Bool) (th : ThArg) (m : ℕ) (hth : th = .none ∧ m = 20 ∨ th = .int m) :
    let o := singleObj K n p (some d) x y w s
    ∃ t : ℕ → ℝ, (∃ r, Confusion o g th sl r) ∧
      (∀ r, Confusion o g th sl r → ∃ c, r = .ok (m, c) ∧ ∀ k < m,
        CountsAt n (sl.getD s) (linkProb K d x y) (g.links n) (t k) c k) ∧
      ∃ lo hi, pRange o (ofENN d) = some (lo, hi) ∧
        t = logspace (Real.log lo) (Real.log hi) m ∧
        ∀ k < m, lo ^ Real.log 10 ≤ t k ∧ t k ≤ hi ^ Real.log 10 := by
  intro o
  obtain ⟨lo, hi, hr, ⟨i, hi', j, hj', hlo⟩, ⟨i2, hi2, j2, hj2, hhi⟩, hall⟩ :=
    C80_range K n p hn d x y w s
  have h0 : 0 < lo := hlo ▸ hpos i hi' j hj'
  have h1 : 0 < hi := hhi ▸ hpos i2 hi2 j2 hj2
  have hle : lo ≤ hi := (hall i hi' j hj').1.trans (hall i hi' j hj').2
  have hch : thresholds (pRange o (ofENN d)) th
      = .ok (m, fun k => fin (logspace (Real.log lo) (Real.log hi) m k)) := by
    have e : autoThresholds lo hi m = _ := autoThresholds_ok h0 h1 m
    rcases hth with ⟨rfl, rfl⟩ | rfl
    · rw [hr]
      show (match autoThresholds lo hi 20 with
        | .error e => Except.error (ConfErr.thresholds e)
        | .ok r => .ok r) = _
      rw [show (20 : ℤ) = ((20 : ℕ) : ℤ) by norm_num, e]
    · rw [hr]
      show (match autoThresholds lo hi m with
        | .error e => Except.error (ConfErr.thresholds e)
        | .ok r => .ok r) = _
      rw [e]
  have hsame : ∀ r, Confusion o g th sl r ↔ Confusion o g
      (.array m (fun k => fin (logspace (Real.log lo) (Real.log hi) m k))) sl r := by
    intro r
    show (match thresholds (pRange o (ofENN d)) th with
      | .error e => r = .error e
      | .ok (K, t) => _) ↔ _
    rw [hch]
    rfl
  refine ⟨logspace (Real.log lo) (Real.log hi) m, ?_, ?_, lo, hi, hr, rfl, fun k hk => ?_⟩
  · obtain ⟨r, h⟩ := (C80_confusion K n hp d x y w s g hg hs hz m
      (logspace (Real.log lo) (Real.log hi) m) sl).1
    exact ⟨r, (hsame r).2 h⟩
  · intro r h
    exact (C80_confusion K n hp d x y w s g hg hs hz m
      (logspace (Real.log lo) (Real.log hi) m) sl).2 r ((hsame r).1 h)
  · have := logspace_mem (Real.log_le_log h0 hle) hk
    rwa [ten_rpow_log h0, ten_rpow_log h1] at this

theorem howMany_false (n : ℕ) (s : Bool) (P : ℕ × ℕ → Prop)
    (h : ∀ e ∈ Law.pairs n s, ¬ P e) : howMany n s P = 0 := by
  classical
  unfold howMany
  rw [Finset.card_eq_zero, Finset.filter_eq_empty_iff]
  intro e he
  exact h e he

/-- **C80** fails for automatic thresholds: they should range over the probabilities of the model, but
if these are positive and below one, every pair is positive at the first threshold, and the pairs
with the largest probability are positive at all of them. -/
theorem C80_auto_violated (K : Kind) (n : ℕ) (hn : 0 < n) {p : ℕ} (hp : 0 < p) (d : ℝ≥0∞)
    (x y : ℕ → ℝ≥0∞) (w : ℕ → ℕ → XR) (s : Bool)
    (hpos : ∀ i < n, ∀ j < n, 0 < linkProb K d x y (i, j))
    (hlt : ∀ i < n, ∀ j < n, linkProb K d x y (i, j) < 1)
    (g : Arg) (hg : g ≠ .other) (hs : g.shape = (n, n)) (hz : g.NoStoredZeros n)
    (sl : Option Bool) :
    ∃ t : ℕ → ℝ,
      (∀ r, Confusion (singleObj K n p (some d) x y w s) g .none sl r → ∃ c, r = .ok (20, c) ∧
        (∀ k < 20, CountsAt n (sl.getD s) (linkProb K d x y) (g.links n) (t k) c k) ∧
        c.fn 0 = 0 ∧ c.tn 0 = 0) ∧
      (∀ i < n, ∀ j < n, t 0 < linkProb K d x y (i, j)) ∧
      ∃ i < n, ∃ j < n, ∀ k < 20, t k < linkProb K d x y (i, j) := by
  obtain ⟨t, -, hc, lo, hi, hr, ht, hb⟩ := C80_auto_partial K n hn hp d x y w s hpos g hg hs hz sl
    .none 20 (Or.inl ⟨rfl, rfl⟩)
  obtain ⟨lo', hi', hr', ⟨i, hi1, j, hj1, hlo⟩, ⟨i2, hi2, j2, hj2, hhi⟩, hall⟩ :=
    C80_range K n p hn d x y w s
  rw [hr'] at hr
  cases hr
  have h0 : 0 < lo := hlo ▸ hpos i hi1 j hj1
  have hl1 : lo < 1 := hlo ▸ hlt i hi1 j hj1
  have h0' : 0 < hi := hhi ▸ hpos i2 hi2 j2 hj2
  have hh1 : hi < 1 := hhi ▸ hlt i2 hi2 j2 hj2
  have hpow : ∀ q : ℝ, 0 < q → q < 1 → q ^ Real.log 10 < q := by
    intro q h0 h1
    calc q ^ Real.log 10 < q ^ (1 : ℝ) := Real.rpow_lt_rpow_of_exponent_gt h0 h1 one_lt_log_ten
      _ = q := Real.rpow_one _
  have ht0 : t 0 = lo ^ Real.log 10 := by
    rw [ht, ← ten_rpow_log h0]; simp [logspace]
  have hfirst : ∀ i < n, ∀ j < n, t 0 < linkProb K d x y (i, j) := by
    intro i hi j hj
    rw [ht0]
    exact (hpow lo h0 hl1).trans_le (hall i hi j hj).1
  refine ⟨t, fun r hr => ?_, hfirst, i2, hi2, j2, hj2, fun k hk => ?_⟩
  · obtain ⟨c, rfl, hk⟩ := hc r hr
    have hno : ∀ e ∈ Law.pairs n (sl.getD s), ¬ linkProb K d x y e < t 0 := by
      rintro ⟨a, b⟩ he
      have hm := Law.mem_pairs.1 he
      exact not_lt.2 (hfirst a hm.1 b hm.2.1).le
    refine ⟨c, rfl, hk, ?_, ?_⟩
    · rw [(hk 0 (by norm_num)).2.1]
      exact howMany_false _ _ _ (fun e he h => hno e he h.2)
    · rw [(hk 0 (by norm_num)).2.2.2]
      exact howMany_false _ _ _ (fun e he h => hno e he h.2)
  · rw [hhi]
    exact (hb k hk).2.trans_lt (hpow hi h0' hh1)

/-- **C80** fails for automatic thresholds if some pair of vertices cannot be linked: the logarithm of
zero raises, whatever the graph. -/
theorem C80_auto_zero_violated (K : Kind) (n p : ℕ) (d : ℝ≥0∞) (x y : ℕ → ℝ≥0∞) (w : ℕ → ℕ → XR)
    (s : Bool) (i j : ℕ) (hi : i < n) (hj : j < n) (h0 : linkProb K d x y (i, j) = 0) (g : Arg)
    (sl : Option Bool) (th : ThArg) (hth : th = .none ∨ ∃ k, th = .int k)
    (r : Except ConfErr (ℕ × Conf)) :
    Confusion (singleObj K n p (some d) x y w s) g th sl r ↔
      r = .error (.thresholds .mathDomain) := by
  obtain ⟨lo, hi', hr, ⟨i1, -, j1, -, hlo⟩, -, hall⟩ := C80_range K n p (by omega) d x y w s
  have hz : lo = 0 := le_antisymm (h0 ▸ (hall i hi j hj).1) (hlo ▸ (linkProb_mem K d x y _).1)
  subst hz
  have hch : thresholds (pRange (singleObj K n p (some d) x y w s) (ofENN d)) th
      = .error (.thresholds .mathDomain) := by
    have e : ∀ k, autoThresholds 0 hi' k = .error .mathDomain := by
      intro k
      simp only [autoThresholds, mathLog, lt_irrefl, if_false]; rfl
    rw [hr]
    rcases hth with rfl | ⟨k, rfl⟩
    · show (match autoThresholds 0 hi' 20 with
        | .error e => Except.error (ConfErr.thresholds e)
        | .ok r => .ok r) = _
      rw [e]
    · show (match autoThresholds 0 hi' k with
        | .error e => Except.error (ConfErr.thresholds e)
        | .ok r => .ok r) = _
      rw [e]
  show (match thresholds (pRange (singleObj K n p (some d) x y w s) (ofENN d)) th with
    | .error e => r = .error e
    | .ok (K, t) => _) ↔ _
  rw [hch]

/-- Three vertices with equal properties satisfy both conditions on the probabilities. -/
example (K : Kind) : 0 < linkProb K 1 (fun _ => 1) (fun _ => 1) (0, 1) ∧
    linkProb K 1 (fun _ => 1) (fun _ => 1) (0, 1) < 1 ∧
    linkProb K 1 (fun i => if i = 0 then 0 else 1) (fun _ => 1) (0, 1) = 0 := by
  refine ⟨?_, ?_, ?_⟩
  · exact K.q_pos (by simp)
  · cases K
    · simp [linkProb, Kind.q, fitProb]; norm_num
    · simp [linkProb, Kind.q, invProb, Real.exp_pos]
  · unfold linkProb
    simp [K.q_zero]

/-! ## `sample` -/

section Sample

variable {ι γ κ : Type} [DecidableEq ι]

/-- What does not depend on the random numbers. -/
def Header (n : ℕ) (ref : Option (Ref ι γ κ)) (g : Sampled.Obj ι γ Adj) : Prop :=
  g.num_vertices = n ∧ n < 256 ^ g.id_bytes.toNat ∧
  Names n (ref.map Ref.id_dict) g.id_dict ∧ g.group = ref.bind Ref.group

theorem header_of (n : ℕ) (ref : Option (Ref ι γ κ)) (A : Adj) :
    Header n ref ⟨n, get_num_bytes n, ids n ref, ref.bind Ref.group, A⟩ := by
  refine ⟨rfl, bytes_ok n, ?_, rfl⟩
  cases ref with
  | none => exact names_range n
  | some r => exact names_ref n r.id_dict

/-- **C80**: `sample` has one outcome, whatever the order in which the blocks are collected: a graph
with the names and groups of the reference whose adjacency matrix has an entry for a pair exactly if
its random number is below its probability; self loops occur if the argument asks for them (by
default, if the ensemble has them). -/
theorem C80_sample (K : Kind) (n : ℕ) (hn : n < 2 ^ 64) {p : ℕ} (hp : 0 < p) (d : ℝ≥0∞)
    (x y : ℕ → ℝ≥0∞) (w : ℕ → ℕ → XR) (s : Bool) (ref : Option (Ref ι γ κ)) (sl : Option Bool)
    (u e : ℕ → ℕ → ℝ) :
    ∃ g, (∀ r, Sample (singleObj K n p (some d) x y w s) ref .none sl u e r ↔ r = .ok g) ∧
      Header n ref g ∧
      ∃ A, g.adj = .bool A ∧ ∀ i j, A i j = true ↔
        (i, j) ∈ Law.pairs n (sl.getD s) ∧ u i j < linkProb K d x y (i, j) := by
  have hE := single_is K n p d x y w s
  have hd : validDtype (get_num_bytes n) := (Graph.C26_valid n).2 hn
  let E := (singleObj K n p (some d) x y w s).ens (ofENN d)
  have hrows : ∀ rows, Folds (· ++ ·) [] (sampleTasks E n p (sl.getD s) u) rows →
      coo (boolRows rows) = coo (boolRows (E.binary_sample n (sl.getD s) u)) := by
    intro rows h
    have hperm := C43_sample (single_dyadFree K n p d x y w s) hp (sl.getD s) u h
    funext i j
    rw [Bool.eq_iff_iff, coo_bool, coo_bool, hperm.mem_iff]
  refine ⟨⟨n, get_num_bytes n, ids n ref, ref.bind Ref.group,
    .bool (coo (boolRows (E.binary_sample n (sl.getD s) u)))⟩, fun r => ?_, header_of n ref _, _, rfl,
    fun i j => ?_⟩
  · unfold Sample
    show (open Classical in if validDtype (get_num_bytes n) then (∃ rows, Folds (· ++ ·) []
      (sampleTasks E n p (sl.getD s) u) rows ∧ r = .ok (⟨n, get_num_bytes n, ids n ref,
        ref.bind Ref.group, .bool (coo (boolRows rows))⟩ : Sampled.Obj ι γ Adj))
      else r = .error .dtype) ↔ _
    rw [if_pos hd]
    constructor
    · rintro ⟨rows, h, rfl⟩
      rw [hrows rows h]
    · rintro rfl
      have hf := folds_fold (· ++ ·) ([] : List (ℕ × ℕ)) (sampleTasks E n p (sl.getD s) u)
      exact ⟨_, hf, by rw [hrows _ hf]⟩
  · rw [coo_bool, mem_binary_sample hE.coherent, hE.prob_eq]

/-- **C80**, law: with independent uniform numbers for the pairs, the adjacency matrix is that of the
graph `G` with the probability of `G` in the ensemble, with or without self loops as asked. -/
theorem C80_sample_law (K : Kind) (n : ℕ) (hn : n < 2 ^ 64) {p : ℕ} (hp : 0 < p) (d : ℝ≥0∞)
    (x y : ℕ → ℝ≥0∞) (w : ℕ → ℕ → XR) (s : Bool) (ref : Option (Ref ι γ κ)) (sl : Option Bool)
    (e : ℕ → ℕ → ℝ) {Ω : Type} [MeasurableSpace Ω] (P : Measure Ω) (U : ℕ × ℕ → Ω → ℝ)
    (hU : IsUniform P U) (G : Finset (ℕ × ℕ)) (hG : G ⊆ Law.pairs n (sl.getD s)) :
    P {ω | ∃ g, Sample (singleObj K n p (some d) x y w s) ref .none sl (fun i j => U (i, j) ω) e
        (.ok g) ∧ g.adj.Links (G : Set (ℕ × ℕ))}
      = ENNReal.ofReal (Law.prob (Law.pairs n (sl.getD s)) (linkProb K d x y) G) := by
  have h := hU.measure_box (Law.pairs n (sl.getD s)) (linkProb K d x y)
    (fun e _ => linkProb_mem K d x y e) (fun e => e ∈ G)
  unfold Law.prob
  rw [← h]
  congr 1
  ext ω
  obtain ⟨g, hg, -, A, hA, hlink⟩ :=
    C80_sample K n hn hp d x y w s ref sl (fun i j => U (i, j) ω) e
  simp only [Set.mem_ofPred_eq]
  constructor
  · rintro ⟨g', hg', hL⟩
    rw [hg] at hg'
    cases hg'
    rw [hA] at hL
    rintro ⟨i, j⟩ he
    have h1 := hlink i j
    have h2 : A i j = true ↔ (i, j) ∈ G := hL i j
    rw [← h2, h1]
    exact ⟨fun h => ⟨he, h⟩, fun h => h.2⟩
  · intro hall
    refine ⟨g, (hg _).2 rfl, ?_⟩
    rw [hA]
    intro i j
    refine (hlink i j).trans ?_
    show _ ↔ (i, j) ∈ (G : Set (ℕ × ℕ))
    rw [Finset.mem_coe]
    constructor
    · rintro ⟨hm, hlt⟩
      exact (hall _ hm).1 hlt
    · intro hm
      exact ⟨hG hm, (hall _ (hG hm)).2 hm⟩

/-- **C80**, weights: with accepted strengths there is one outcome; the entry of a drawn link is its
weight, all other entries are zero. -/
theorem C80_sample_weights (K : Kind) (n : ℕ) (hn : n < 2 ^ 64) {p : ℕ} (hp : 0 < p) (d : ℝ≥0∞)
    (x y : ℕ → ℝ≥0∞) (w : ℕ → ℕ → XR) (s : Bool) (ref : Option (Ref ι γ κ)) (sl : Option Bool)
    (so si : ℕ → ℝ) (u e : ℕ → ℕ → ℝ) (hu : ∀ i j, 0 ≤ u i j)
    (hne : (∑ i ∈ Finset.range n, so i) ≠ 0)
    (hclose : |(∑ i ∈ Finset.range n, so i) - ∑ i ∈ Finset.range n, si i|
      < 1e-6 * |∑ i ∈ Finset.range n, so i|) :
    ∃ g, (∀ r, Sample (singleObj K n p (some d) x y w s) ref (.cremb so si) sl u e r ↔
        r = .ok g) ∧
      Header n ref g ∧
      ∃ A, g.adj = .float A ∧ ∀ i j,
        ((i, j) ∈ Law.pairs n (sl.getD s) → u i j < linkProb K d x y (i, j) →
          A i j = so i * si j / ((∑ k ∈ Finset.range n, so k) * linkProb K d x y (i, j)) * e i j) ∧
        (¬ ((i, j) ∈ Law.pairs n (sl.getD s) ∧ u i j < linkProb K d x y (i, j)) → A i j = 0) := by
  have hE := single_is K n p d x y w s
  have hd : validDtype (get_num_bytes n) := (Graph.C26_valid n).2 hn
  let E := (singleObj K n p (some d) x y w s).ens (ofENN d)
  have href := C16_refused E n (sl.getD s) so si u e
  have hl : ∃ l, E.cremb_sample n so si (sl.getD s) u e = .ok l := by
    cases hl : E.cremb_sample n so si (sl.getD s) u e with
    | ok l => exact ⟨l, rfl⟩
    | error err =>
      cases err
      rcases href.1 hl with h | h
      · exact absurd h hne
      · exact absurd h (not_le.2 hclose)
  obtain ⟨l, hl⟩ := hl
  obtain ⟨h1, h2⟩ := C16_formula hE n (sl.getD s) so si u e hu l hl
  have hnd : (l.map Prod.fst).Nodup := by
    rw [h1, binary_sample_eq]; exact (nodup_order n _).filter _
  have hmem : ∀ i j, (i, j) ∈ l.map Prod.fst ↔
      (i, j) ∈ Law.pairs n (sl.getD s) ∧ u i j < linkProb K d x y (i, j) := by
    intro i j
    rw [h1, mem_binary_sample hE.coherent, hE.prob_eq]
  have hcoo : ∀ l', l'.Perm l → coo (floatRows l') = coo (floatRows l) := by
    intro l' hp
    have hnd' : (l'.map Prod.fst).Nodup := (hp.map _).nodup_iff.2 hnd
    funext i j
    by_cases hm : (i, j) ∈ l.map Prod.fst
    · obtain ⟨⟨a, v⟩, ha, hae⟩ := List.mem_map.1 hm
      cases hae
      rw [(coo_float hnd i j).1 v ha, (coo_float hnd' i j).1 v (hp.mem_iff.2 ha)]
    · rw [(coo_float hnd i j).2 hm,
        (coo_float hnd' i j).2 (fun h => hm ((hp.map _).mem_iff.1 h))]
  refine ⟨⟨n, get_num_bytes n, ids n ref, ref.bind Ref.group, .float (coo (floatRows l))⟩,
    fun r => ?_, header_of n ref _, _, rfl, fun i j => ?_⟩
  · unfold Sample
    show (open Classical in if validDtype (get_num_bytes n) then (∃ rows, Folds appendRows (.ok [])
      (crembTasks E n p so si (sl.getD s) u e) rows ∧ r = (match rows with
        | .error _ => .error .strengthsDiffer
        | .ok l => .ok (⟨n, get_num_bytes n, ids n ref, ref.bind Ref.group,
            .float (coo (floatRows l))⟩ : Sampled.Obj ι γ Adj)))
      else r = .error .dtype) ↔ _
    rw [if_pos hd]
    constructor
    · rintro ⟨rows, h, rfl⟩
      obtain ⟨l', rfl, hp'⟩ := (C43_cremb (single_dyadFree K n p d x y w s) hp so si (sl.getD s) u e
        h).1 l hl
      dsimp only
      rw [hcoo l' hp']
    · rintro rfl
      have hf := folds_fold appendRows (.ok []) (crembTasks E n p so si (sl.getD s) u e)
      obtain ⟨l', he, hp'⟩ := (C43_cremb (single_dyadFree K n p d x y w s) hp so si (sl.getD s) u e
        hf).1 l hl
      refine ⟨_, hf, ?_⟩
      rw [he]
      dsimp only
      rw [hcoo l' hp']
  · obtain ⟨c1, c2⟩ := coo_float hnd i j
    constructor
    · intro hm hlt
      obtain ⟨a, ha, hae⟩ := List.mem_map.1 ((hmem i j).2 ⟨hm, hlt⟩)
      obtain ⟨e', v⟩ := a
      cases hae
      refine (c1 v ha).trans ?_
      rw [show v = _ from (h2 _ ha).2]
      rfl
    · intro hno
      exact c2 (fun h => hno ((hmem i j).1 h))

omit [DecidableEq ι] in
/-- **C80**: the exceptions of `sample`. -/
theorem C80_sample_errors (o : Obj) (ref : Option (Ref ι γ κ)) (wt : Verif.Method.Weights)
    (sl : Option Bool) (u e : ℕ → ℕ → ℝ) (r : Except Sampled.Err (Sampled.Obj ι γ Adj)) :
    (o.param = none → (Sample o ref wt sl u e r ↔ r = .error .notFitted)) ∧
    (o.param ≠ none → 2 ^ 64 ≤ o.num_vertices → (Sample o ref wt sl u e r ↔ r = .error .dtype)) ∧
    (o.param ≠ none → o.num_vertices < 2 ^ 64 → wt = .other →
      (Sample o ref wt sl u e r ↔ r = .error .badWeights)) ∧
    (∀ so si, o.param ≠ none → o.num_vertices < 2 ^ 64 → wt = .cremb so si → 0 < o.p_blocks →
      (∀ θ, o.param = some θ → DyadFree (o.ens θ)) →
      ((∑ i ∈ Finset.range o.num_vertices, so i) = 0 ∨
        1e-6 * |∑ i ∈ Finset.range o.num_vertices, so i|
          ≤ |(∑ i ∈ Finset.range o.num_vertices, so i) -
            ∑ i ∈ Finset.range o.num_vertices, si i|) →
      (Sample o ref wt sl u e r ↔ r = .error .strengthsDiffer)) := by
  refine ⟨fun h => ?_, fun h hn => ?_, fun h hn hw => ?_, fun so si h hn hw hp hd hbad => ?_⟩
  · unfold Sample; rw [h]
  · obtain ⟨θ, hθ⟩ := Option.ne_none_iff_exists'.1 h
    have : ¬ validDtype (get_num_bytes o.num_vertices) := fun h =>
      absurd ((Graph.C26_valid _).1 h) (by omega)
    unfold Sample; rw [hθ]
    dsimp only
    rw [if_neg this]
  · obtain ⟨θ, hθ⟩ := Option.ne_none_iff_exists'.1 h
    unfold Sample; rw [hθ]
    dsimp only
    rw [if_pos ((Graph.C26_valid _).2 hn), hw]
  · obtain ⟨θ, hθ⟩ := Option.ne_none_iff_exists'.1 h
    have href := (C16_refused (o.ens θ) o.num_vertices (sl.getD o.selfloops) so si u e).2 hbad
    unfold Sample; rw [hθ]
    dsimp only
    rw [if_pos ((Graph.C26_valid _).2 hn), hw]
    dsimp only
    constructor
    · rintro ⟨rows, h, rfl⟩
      rw [(C43_cremb (hd θ hθ) hp so si (sl.getD o.selfloops) u e h).2 _ href]
    · rintro rfl
      have hf := folds_fold appendRows (.ok []) (crembTasks (o.ens θ) o.num_vertices o.p_blocks so si
        (sl.getD o.selfloops) u e)
      refine ⟨_, hf, ?_⟩
      rw [(C43_cremb (hd θ hθ) hp so si (sl.getD o.selfloops) u e hf).2 _ href]

/-- Accepted strengths, uniform numbers. -/
example : (∑ i ∈ Finset.range 3, ((fun i => (i : ℝ)) : ℕ → ℝ) i) ≠ 0 ∧
    |(∑ i ∈ Finset.range 3, ((fun i => (i : ℝ)) : ℕ → ℝ) i) -
      ∑ i ∈ Finset.range 3, ((fun i => (2 - i : ℝ)) : ℕ → ℝ) i|
      < 1e-6 * |∑ i ∈ Finset.range 3, ((fun i => (i : ℝ)) : ℕ → ℝ) i| := by
  constructor
  · simp [Finset.sum_range_succ]; norm_num
  · simp [Finset.sum_range_succ]; norm_num

example : ∃ (Ω : Type) (_ : MeasurableSpace Ω) (P : Measure Ω) (U : ℕ × ℕ → Ω → ℝ), IsUniform P U := by
  obtain ⟨Ω, m, P, -, U, h⟩ := exists_isUniform (ℕ × ℕ)
  exact ⟨Ω, m, P, U, h⟩

end Sample

end Method

end Spark

end

end Verif
