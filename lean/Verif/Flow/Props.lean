import Verif.Flow.Lemmas
import Verif.Ensemble.MethodProps
import Verif.Ensemble.ModelProps
import Verif.Validate.SparkProps

/-!
# C78: from the edge table to the fitted ensemble

Statements about whole runs: graph, queries, model, fit, and what is asked of the fitted model.
Everything is stated on the tables of vertices and edges given by the user.
-/

namespace Verif.Flow

open XR Spec Graph
open scoped ENNReal NNReal

noncomputable section

variable {ι γ : Type} [LinearOrder ι] [LinearOrder γ]

/-- The tables describe a weighted graph: distinct identifiers, known end points, positive
weights. -/
def Table (v : List (ι × γ)) (e : List (Row ι ℝ)) : Prop :=
  (v.map Prod.fst).Nodup ∧ (∀ r ∈ e, r.src ∈ v.map Prod.fst ∧ r.dst ∈ v.map Prod.fst) ∧
    ∀ r ∈ e, 0 < r.val

/-- Number of ordered pairs, admissible for the setting, whose first vertex has an outgoing and
whose second vertex has an incoming row. -/
def support (s : Bool) (e : List (Row ι ℝ)) : ℕ :=
  (((e.map Row.src).toFinset ×ˢ (e.map Row.dst).toFinset).filter
    (fun p => p.1 ≠ p.2 ∨ s = true)).card

/-- The connection probability of a pair with strengths `a` and `b`. -/
def connect (M : Model) (d a b : ℝ) : ℝ :=
  match M with
  | .sparseFit | .denseFit => d * (a * b) / (1 + d * (a * b))
  | .sparseInv | .denseInv => 1 - Real.exp (-(d * (a * b)))

theorem mkOf_iff (b : Backend) (v : List (ι × γ)) (e : List (Row ι ℝ)) :
    (∃ g, mkOf b v e = .ok g) ↔ Table v e := by
  have hp : ∀ r : Row ι ℝ, Dtype.pos r.val = true ↔ 0 < r.val := fun r => by simp [Dtype.pos]
  constructor
  · rintro ⟨g, h⟩
    obtain ⟨h1, h2, h3, -⟩ := built_ok (mkOf_built h)
    exact ⟨h1, h2, fun r hr => (hp r).1 (h3 r hr)⟩
  · rintro ⟨h1, h2, h3⟩
    cases b
    · exact dense_accepts h1 h2 fun r hr => (hp r).2 (h3 r hr)
    · exact sparse_accepts h1 h2 fun r hr => (hp r).2 (h3 r hr)

section

variable {M : Model} {v : List (ι × γ)} {e : List (Row ι ℝ)} {hist : List (Q × Bool)}
  {kw : List (Validate.Key × Validate.Val)} {s : Bool} {o : Fit.Opts}

/-- What a successful run consists of. -/
theorem run_ok (hkw : Setting kw s) (hat : 0 < o.atol) (hrt : 0 ≤ o.rtol) {R : Result ι γ}
    (h : run M v e hist kw .none .density o = .ok R) :
    v ≠ [] ∧ mkOf M.backend v e = .ok R.graph ∧ R.model = modelOf R.graph e s ∧
    Fit.fitSingle ((M.fitter (outS R.graph) (inS R.graph)).func R.graph.num_vertices s)
        (some (numPairs e : ℝ)) .none .density o = .ok R.solution ∧
    ∃ d : ℝ≥0, R.solution.x = fin d ∧ ∃ u,
      ((M.fitter (outS R.graph) (inS R.graph)).ens d).exp_edges R.graph.num_vertices s = fin u ∧
      (R.solution.converged = true ↔ |u - numPairs e| ≤ o.atol + o.rtol * numPairs e) := by
  cases hg : mkOf M.backend v e with
  | error er => rw [run_error hist _ _ _ hg] at h; cases h
  | ok g =>
    have hv : v ≠ [] := by
      rintro rfl
      rw [run_empty hkw hg] at h; cases h
    rw [run_eq hkw hg hv] at h
    cases hf : Fit.fitSingle ((M.fitter (outS g) (inS g)).func g.num_vertices s)
        (some (numPairs e : ℝ)) .none .density o with
    | error er => rw [hf] at h; simp [Except.mapError, bind, Except.bind] at h
    | ok sol =>
      rw [hf] at h
      simp only [Except.mapError, bind, Except.bind, Except.ok.injEq] at h
      subst h
      exact ⟨hv, rfl, rfl, hf, Fit.C34_converged (isFitter _ _ _) hat hrt (Nat.cast_nonneg _)
        (by intro w hw; exact ⟨0, by simpa [Fit.X0.single, zero_def] using hw⟩) hf⟩

omit [LinearOrder γ] in
theorem expected_eq {R : Result ι γ} (hR : R.model = modelOf R.graph e s) (d : ℝ≥0) :
    (R.withParam M (fin d)).exp_edges R.model.num_vertices.toNat (loopsOf R.model.selfloops) =
      ((M.fitter (outS R.graph) (inS R.graph)).ens d).exp_edges R.graph.num_vertices s := by
  rw [fitter_ens, Fit.ofENN_coe, hR]
  unfold Result.withParam
  rw [hR]
  rfl

/-- **C78**, runs: building the graph, making the model from it and fitting succeeds exactly for
non-empty tables of vertices with distinct identifiers, known end points and positive weights,
whatever was asked of the graph before; the fitted parameter is a finite number, and `converged`
tells whether the expected number of edges is the number of edges of the table within the
tolerances. -/
theorem C78_run (hkw : Setting kw s) (hat : 0 < o.atol) (hrt : 0 ≤ o.rtol) :
    ((∃ R, run M v e hist kw .none .density o = .ok R) ↔ v ≠ [] ∧ Table v e) ∧
    ∀ R, run M v e hist kw .none .density o = .ok R →
      R.model.num_vertices = v.length ∧
      ∃ d u : ℝ, 0 ≤ d ∧ R.solution.x = fin d ∧ R.expected_num_edges M = fin u ∧
        (R.solution.converged = true ↔
          |u - ((e.map (fun r => (r.src, r.dst))).toFinset.card : ℝ)| ≤
            o.atol + o.rtol * ((e.map (fun r => (r.src, r.dst))).toFinset.card : ℝ)) := by
  refine ⟨⟨?_, ?_⟩, ?_⟩
  · rintro ⟨R, h⟩
    obtain ⟨hv, hg, -⟩ := run_ok hkw hat hrt h
    exact ⟨hv, (mkOf_iff _ v e).1 ⟨_, hg⟩⟩
  · rintro ⟨hv, ht⟩
    obtain ⟨g, hg⟩ := (mkOf_iff M.backend v e).2 ht
    obtain ⟨sol, h1, -⟩ := Fit.C30_fit (isFitter M (outS g) (inS g)) (n := g.num_vertices)
      (selfloops := s) hat hrt (Nat.cast_nonneg (numPairs e)) 0
    have h2 : Fit.fitSingle ((M.fitter (outS g) (inS g)).func g.num_vertices s)
        (some (numPairs e : ℝ)) .none .density o = .ok sol := by
      rw [← h1]
      simp [Fit.fitSingle, Fit.X0.single, zero_def]
    refine ⟨⟨g, modelOf g e s, sol⟩, ?_⟩
    rw [run_eq hkw hg hv, h2]
    rfl
  · intro R h
    obtain ⟨hv, hg, hm, -, d, hd, u, hu, hc⟩ := run_ok hkw hat hrt h
    refine ⟨?_, d, u, d.2, hd, ?_, hc⟩
    · rw [hm]
      show ((R.graph.num_vertices : ℕ) : ℤ) = _
      rw [(built_ok (mkOf_built hg)).2.2.2.1]
    · rw [← hu, ← expected_eq (M := M) hm d]
      unfold Result.expected_num_edges Result.ens Result.withParam
      rw [hd]

theorem p_fin (M : Model) (x y : ℕ → ℝ≥0) (d : ℝ≥0) (i j : ℕ) :
    (M.ens (fin d) (Fit.arrN x) (Fit.arrN y)).p i j = fin (connect M d (x i) (y j)) := by
  have h1 := sparse_fit_p_fin d.2 (x i).2 (y j).2 zero_le_one
  have h2 := sparse_inv_p_fin d.2 (x i).2 (y j).2 zero_le_one
  have e := C07_single (fin d) (fin (x i)) (fin (y j)) 1
  simp only [mul_one, ← one_def] at h1 h2
  cases M
  · exact h1
  · exact h2
  · exact e.1.symm.trans h1
  · exact e.2.2.2.2.1.symm.trans h2

/-- **C78**, probabilities: the fitted ensemble connects two vertices with the probability of the
model for the sums of the weights of the rows leaving the first and entering the second; dense
backend: for tables without repeated ordered pairs. -/
theorem C78_probability_partial (hkw : Setting kw s) (hat : 0 < o.atol) (hrt : 0 ≤ o.rtol)
    (hu : M.backend = .dense → (e.map (fun r => (r.src, r.dst))).Nodup) {R : Result ι γ}
    (h : run M v e hist kw .none .density o = .ok R) {d : ℝ} (hd : R.solution.x = fin d)
    {x y : ι} {i j : ℕ} (hx : R.graph.id_dict.lookup x = some i)
    (hy : R.graph.id_dict.lookup y = some j) :
    (R.ens M).p i j = fin (connect M d ((e.filter (fun r => r.src = x)).map Row.val).sum
      ((e.filter (fun r => r.dst = y)).map Row.val).sum) := by
  obtain ⟨hv, hg, hm, -, d', hd', -⟩ := run_ok hkw hat hrt h
  have hdd : d = d' := by rw [hd] at hd'; exact fin_inj.1 hd'
  have hb := mkOf_built hg
  have so := (C70_single_strength_partial (directed := true) hg hu [] false hx 0).1
  have si := (C70_single_strength_partial (directed := true) hg hu [] false hy 0).2.1
  simp only [C70_history] at so si
  have so' : (outS R.graph i : ℝ) = ((e.filter (fun r => r.src = x)).map Row.val).sum :=
    (coe_outS hb i).trans so
  have si' : (inS R.graph j : ℝ) = ((e.filter (fun r => r.dst = y)).map Row.val).sum :=
    (coe_inS hb j).trans si
  unfold Result.ens
  rw [hm, hd, hdd, ← so', ← si']
  exact p_fin M _ _ d' i j

theorem connect_zero (M : Model) (d : ℝ≥0) (a b : ℝ≥0) :
    connect M d a b = 0 ↔ d = 0 ∨ a = 0 ∨ b = 0 := by
  have h0 : 0 ≤ (d : ℝ) * (a * b) := by positivity
  have key : (d : ℝ) * (a * b) = 0 ↔ d = 0 ∨ a = 0 ∨ b = 0 := by
    simp
  rw [← key]
  cases M <;> simp only [connect]
  · rw [div_eq_zero_iff]; constructor
    · rintro (h | h)
      · exact h
      · linarith
    · exact Or.inl
  · rw [sub_eq_zero, eq_comm, Real.exp_eq_one_iff, neg_eq_zero]
  · rw [div_eq_zero_iff]; constructor
    · rintro (h | h)
      · exact h
      · linarith
    · exact Or.inl
  · rw [sub_eq_zero, eq_comm, Real.exp_eq_one_iff, neg_eq_zero]

theorem connect_lt_one (M : Model) (d : ℝ≥0) (a b : ℝ≥0) : connect M d a b < 1 := by
  have h0 : 0 ≤ (d : ℝ) * (a * b) := by positivity
  have h1 : (d : ℝ) * (a * b) / (1 + d * (a * b)) < 1 := by
    rw [div_lt_one (by linarith)]; linarith
  have h2 : 1 - Real.exp (-((d : ℝ) * (a * b))) < 1 := by
    have := Real.exp_pos (-((d : ℝ) * (a * b))); linarith
  cases M
  · exact h1
  · exact h2
  · exact h1
  · exact h2

/-- **C78**, likelihood: the graph the model was fitted to is possible under the fitted model
unless the fit stayed at zero although there is an admissible link: `log_likelihood(g)` raises no
error and is a finite number in all other cases. -/
theorem C78_likelihood (hkw : Setting kw s) (hat : 0 < o.atol) (hrt : 0 ≤ o.rtol)
    {R : Result ι γ} (h : run M v e hist kw .none .density o = .ok R) :
    ∃ l, R.log_likelihood M = .ok l ∧ l ≠ pinf ∧ l ≠ nan ∧
      (l = ninf ↔ R.solution.x = 0 ∧ ∃ r ∈ e, r.src ≠ r.dst ∨ s = true) := by
  obtain ⟨hv, hg, hm, -, d, hd, -⟩ := run_ok hkw hat hrt h
  have hb := mkOf_built hg
  have hE : R.ens M = (M.fitter (outS R.graph) (inS R.graph)).ens d := by
    rw [fitter_ens, Fit.ofENN_coe]
    unfold Result.ens
    rw [hm, hd]; rfl
  have hp : ∀ i j, (R.ens M).p i j = fin (connect M d (outS R.graph i) (inS R.graph j)) := by
    intro i j
    rw [hE, fitter_ens, Fit.ofENN_coe]; exact p_fin M _ _ d i j
  obtain ⟨c1, c2, c3⟩ := C13_models (by rw [hE]; exact ens_isModel _ _ _ _)
    R.graph.num_vertices s (links R.graph) (E := R.ens M)
  refine ⟨_, ?_, c1, c2, ?_⟩
  · unfold Result.log_likelihood Method.log_likelihood
    simp only [Method.adjOf]
    rw [hm]
    simp only [modelOf, Int.toNat_natCast, loopsOf, ne_eq, not_true_eq_false, if_false]
    rfl
  · have hz : (R.solution.x = 0) ↔ (d : ℝ) = 0 := by rw [hd, zero_def, fin_inj]
    rw [c3, hz]
    have hmem : ∀ i j, (i, j) ∈ links R.graph ↔ i < R.graph.num_vertices ∧
        j < R.graph.num_vertices ∧ ne0 R.graph.adj i j = true := by
      intro i j; simp [links, and_assoc]
    constructor
    · rintro ⟨i, hi, j, hj, hadm, ⟨hl, h0⟩ | ⟨-, h1⟩⟩
      · obtain ⟨x, hx⟩ := onto hb hi
        obtain ⟨y, hy⟩ := onto hb hj
        obtain ⟨r, hr, rfl, rfl⟩ := (C21_connected hb hx hy).1.1 ((hmem i j).1 hl).2.2
        rw [hp, zero_def, fin_inj, connect_zero] at h0
        rcases h0 with h0 | h0 | h0
        · refine ⟨by rw [h0]; rfl, r, hr, ?_⟩
          rcases hadm with hne | hs
          · left; intro heq; apply hne
            rw [heq] at hx
            exact Option.some.inj (hx.symm.trans hy)
          · exact Or.inr hs
        · exact absurd h0 ((outS_ne hb hx).2 ⟨r, hr, rfl⟩)
        · exact absurd h0 ((inS_ne hb hy).2 ⟨r, hr, rfl⟩)
      · rw [hp, one_def, fin_inj] at h1
        exact absurd h1 (connect_lt_one M d _ _).ne
    · rintro ⟨h0, r, hr, hadm⟩
      obtain ⟨i, j, hx, hy, hi, hj⟩ := lookup_row hb hr
      refine ⟨i, hi, j, hj, ?_, Or.inl ⟨(hmem i j).2 ⟨hi, hj, ?_⟩, ?_⟩⟩
      · rcases hadm with hne | hs
        · left; rintro rfl; exact hne (lookup_inj hb hx hy)
        · exact Or.inr hs
      · exact (C21_connected hb hx hy).1.2 ⟨r, hr, rfl, rfl⟩
      · rw [hp, zero_def, fin_inj, connect_zero]
        exact Or.inl (by exact_mod_cast h0)

theorem support_eq {g : Obj ι γ ℝ} (hb : Built v e g) (M : Model) (s : Bool) :
    (M.fitter (outS g) (inS g)).numLinkable g.num_vertices s = support s e := by
  classical
  unfold Fit.Fitter.numLinkable support
  symm
  have hsome : ∀ x, x ∈ e.map Row.src ∨ x ∈ e.map Row.dst →
      ∃ i, g.id_dict.lookup x = some i := by
    rintro x (hx | hx)
    · obtain ⟨r, hr, rfl⟩ := List.mem_map.1 hx
      obtain ⟨i, _, h1, -⟩ := lookup_row hb hr
      exact ⟨i, h1⟩
    · obtain ⟨r, hr, rfl⟩ := List.mem_map.1 hx
      obtain ⟨_, j, -, h1, -⟩ := lookup_row hb hr
      exact ⟨j, h1⟩
  have hget : ∀ x, x ∈ e.map Row.src ∨ x ∈ e.map Row.dst →
      g.id_dict.lookup x = some ((g.id_dict.lookup x).getD 0) := by
    intro x hx
    obtain ⟨i, hi⟩ := hsome x hx
    rw [hi]; rfl
  refine Finset.card_bij (fun p _ => ((g.id_dict.lookup p.1).getD 0, (g.id_dict.lookup p.2).getD 0))
    ?_ ?_ ?_
  · rintro ⟨x, y⟩ hp
    simp only [Finset.mem_filter, Finset.mem_product, List.mem_toFinset] at hp
    obtain ⟨⟨h1, h2⟩, h3⟩ := hp
    have k1 := hget x (Or.inl h1)
    have k2 := hget y (Or.inr h2)
    simp only [Finset.mem_filter, Law.mem_pairs, fitter_linkable]
    refine ⟨⟨lookup_lt hb k1, lookup_lt hb k2, ?_⟩, (outS_ne hb k1).2 ?_, (inS_ne hb k2).2 ?_⟩
    · rcases h3 with h3 | h3
      · left; intro heq; rw [← heq] at k2; exact h3 (lookup_inj hb k1 k2)
      · exact Or.inr h3
    · obtain ⟨r, hr, h⟩ := List.mem_map.1 h1; exact ⟨r, hr, h⟩
    · obtain ⟨r, hr, h⟩ := List.mem_map.1 h2; exact ⟨r, hr, h⟩
  · rintro ⟨x, y⟩ hp ⟨x', y'⟩ hp' heq
    simp only [Finset.mem_filter, Finset.mem_product, List.mem_toFinset] at hp hp'
    simp only [Prod.mk.injEq] at heq ⊢
    have k1 := hget x (Or.inl hp.1.1)
    have k2 := hget y (Or.inr hp.1.2)
    have k1' := hget x' (Or.inl hp'.1.1)
    have k2' := hget y' (Or.inr hp'.1.2)
    rw [← heq.1] at k1'
    rw [← heq.2] at k2'
    exact ⟨lookup_inj hb k1 k1', lookup_inj hb k2 k2'⟩
  · rintro ⟨i, j⟩ hij
    simp only [Finset.mem_filter, Law.mem_pairs, fitter_linkable] at hij
    obtain ⟨⟨hi, hj, hadm⟩, hl1, hl2⟩ := hij
    obtain ⟨x, hx⟩ := onto hb hi
    obtain ⟨y, hy⟩ := onto hb hj
    obtain ⟨r, hr, h1⟩ := (outS_ne hb hx).1 hl1
    obtain ⟨r', hr', h2⟩ := (inS_ne hb hy).1 hl2
    refine ⟨(x, y), ?_, ?_⟩
    · simp only [Finset.mem_filter, Finset.mem_product, List.mem_toFinset]
      refine ⟨⟨List.mem_map.2 ⟨r, hr, h1⟩, List.mem_map.2 ⟨r', hr', h2⟩⟩, ?_⟩
      rcases hadm with hne | hs
      · left; rintro rfl; exact hne (Option.some.inj (hx.symm.trans hy))
      · exact Or.inr hs
    · rw [hx, hy]; rfl

theorem numPairs_pos (he : e ≠ []) : 0 < numPairs e := by
  unfold numPairs
  rw [Finset.card_pos]
  obtain ⟨r, hr⟩ := List.exists_mem_of_ne_nil e he
  exact ⟨(r.src, r.dst), by simpa using ⟨r, hr, rfl, rfl⟩⟩

/-- **C78**, attainability: for a graph with at least one link, some finite parameter reproduces
its number of edges iff that number is less than the number of admissible pairs of a vertex with
outgoing and a vertex with incoming rows, and then exactly one does. -/
theorem C78_attainable (hkw : Setting kw s) (hat : 0 < o.atol) (hrt : 0 ≤ o.rtol) (he : e ≠ [])
    {R : Result ι γ} (h : run M v e hist kw .none .density o = .ok R) :
    let reproduces := fun d : ℝ≥0 =>
      (R.withParam M (fin d)).exp_edges R.model.num_vertices.toNat (loopsOf R.model.selfloops) =
        fin ((e.map (fun r => (r.src, r.dst))).toFinset.card : ℝ)
    ((∃ d, reproduces d) ↔ (e.map (fun r => (r.src, r.dst))).toFinset.card < support s e) ∧
    ((∃ d, reproduces d) → ∃! d, reproduces d) := by
  obtain ⟨hv, hg, hm, -⟩ := run_ok hkw hat hrt h
  have hb := mkOf_built hg
  intro reproduces
  have hrep : ∀ d, reproduces d ↔
      (M.fitter (outS R.graph) (inS R.graph)).Reproduces R.graph.num_vertices s (numPairs e) d := by
    intro d
    show _ = _ ↔ _
    rw [expected_eq (M := M) hm d]; rfl
  have h0 : (0 : ℝ) < numPairs e := by exact_mod_cast numPairs_pos he
  have hF := isFitter M (outS R.graph) (inS R.graph)
  have hn := support_eq hb M s
  have none : support s e ≤ numPairs e → ∀ d, ¬ reproduces d := by
    intro hle d hd
    exact Fit.C34_none hF h0 (by rw [hn]; exact_mod_cast hle) d ((hrep d).1 hd)
  have uniq : numPairs e < support s e → ∃! d, reproduces d := by
    intro hlt
    obtain ⟨d, ⟨hd0, hd⟩, hu⟩ := Fit.C34_unique hF (n := R.graph.num_vertices) (selfloops := s) h0
      (by rw [hn]; exact_mod_cast hlt)
    refine ⟨d, (hrep d).2 hd, fun d' hd' => hu d' ⟨?_, (hrep d').1 hd'⟩⟩
    by_contra hz
    have hz : d' = 0 := le_antisymm (not_lt.1 hz) zero_le
    have := (Fit.reproduces_iff hF).1 ((hrep d').1 hd')
    rw [hz] at this
    have hz' := (Fit.Fitter.isObj hF R.graph.num_vertices s).zero
    simp only [NNReal.coe_zero] at this
    rw [hz'] at this
    linarith
  have iff : (∃ d, reproduces d) ↔ numPairs e < support s e := by
    constructor
    · rintro ⟨d, hd⟩
      by_contra hc
      exact none (not_lt.1 hc) d hd
    · intro hlt
      exact (uniq hlt).exists
  exact ⟨iff, fun hex => uniq (iff.1 hex)⟩

theorem obj_le {F : Fit.Fitter} (hF : Fit.IsFitter F) (n : ℕ) (s : Bool) (d : ℝ≥0) {u : ℝ}
    (hu : (F.ens d).exp_edges n s = fin u) : u ≤ F.numLinkable n s := by
  by_contra hc
  rw [not_le] at hc
  have h0 : 0 < u := lt_of_le_of_lt (Nat.cast_nonneg _) hc
  exact Fit.C34_none hF h0 hc.le d hu

/-- **C78**, too many edges: when the number of edges of the table exceeds the number of
admissible pairs of a vertex with outgoing and a vertex with incoming rows by more than the
tolerance, no fit converges. -/
theorem C78_unattainable (hkw : Setting kw s) (hat : 0 < o.atol) (hrt : 0 ≤ o.rtol)
    {R : Result ι γ} (h : run M v e hist kw .none .density o = .ok R)
    (hlt : (support s e : ℝ) + (o.atol + o.rtol * (e.map (fun r => (r.src, r.dst))).toFinset.card) <
      (e.map (fun r => (r.src, r.dst))).toFinset.card) :
    R.solution.converged = false := by
  obtain ⟨hv, hg, hm, -, d, hd, u, hu, hc⟩ := run_ok hkw hat hrt h
  have hle := obj_le (isFitter M _ _) _ _ d hu
  rw [support_eq (mkOf_built hg)] at hle
  rw [Bool.eq_false_iff]
  intro hcon
  have := (abs_le.1 (hc.1 hcon)).1
  change (support s e : ℝ) + (o.atol + o.rtol * numPairs e) < numPairs e at hlt
  linarith

/-- **C78**, convergence: if `root` reproduces the number of edges of the table and the iteration
limit exceeds `slope * root / tolerance`, where `slope` is the derivative of the expected number of
edges at zero, then the default fit converges, and the expected number of edges of the fitted model
is that of the table within the tolerances. -/
theorem C78_converges (hkw : Setting kw s) (hat : 0 < o.atol) (hrt : 0 ≤ o.rtol)
    {R : Result ι γ} (h : run M v e hist kw .none .density o = .ok R) {root : ℝ≥0}
    (hroot : (R.withParam M (fin root)).exp_edges R.model.num_vertices.toNat
        (loopsOf R.model.selfloops) = fin ((e.map (fun r => (r.src, r.dst))).toFinset.card : ℝ))
    {slope : ℝ} (hslope : (density_fit_fun M R.model 0).2 = fin slope)
    (hlt : slope * root < o.maxiter *
      (o.atol + o.rtol * (e.map (fun r => (r.src, r.dst))).toFinset.card)) :
    R.solution.converged = true ∧ ∃ u, R.expected_num_edges M = fin u ∧
      |u - ((e.map (fun r => (r.src, r.dst))).toFinset.card : ℝ)| ≤
        o.atol + o.rtol * ((e.map (fun r => (r.src, r.dst))).toFinset.card : ℝ) := by
  obtain ⟨-, d, u, -, hd, hu, hc⟩ := (C78_run (M := M) (v := v) (e := e) (hist := hist) hkw hat
    hrt).2 R h
  have hconv : R.solution.converged = true := by
    obtain ⟨hv, hg, hm, hf, -⟩ := run_ok hkw hat hrt h
    rw [expected_eq (M := M) hm root] at hroot
    obtain ⟨sol, slope', k1, k2, -, -, k3⟩ := Fit.C54 (isFitter M (outS R.graph) (inS R.graph))
      (Fit.agree_self _ R.graph.num_vertices s) hat hrt (root := root) (x0 := 0) hroot zero_le
    have hs : sol = R.solution := by
      have hz : Fit.fitSingle ((M.fitter (outS R.graph) (inS R.graph)).func R.graph.num_vertices s)
          (some (numPairs e : ℝ)) .none .density o =
          (Solver.solve (Fit.cfg ((M.fitter (outS R.graph) (inS R.graph)).func R.graph.num_vertices s)
            (numPairs e : ℝ) o) 0).mapError .solver := by
        simp [Fit.fitSingle, Fit.X0.single, Fit.anyNeg, zero_def]
      rw [hz] at hf
      simp only [NNReal.coe_zero, ← zero_def] at k1
      have k1' : Solver.solve (Fit.cfg ((M.fitter (outS R.graph) (inS R.graph)).func
          R.graph.num_vertices s) (numPairs e : ℝ) o) 0 = .ok sol := k1
      rw [k1'] at hf
      simpa [Except.mapError] using hf
    have hsl : slope' = slope := by
      have : density_fit_fun M R.model = (M.fitter (outS R.graph) (inS R.graph)).func
          R.graph.num_vertices s := by
        rw [hm]
        simp only [density_fit_fun, Fit.Fitter.func, fitter_pj, modelOf, loopsOf,
          Int.toNat_natCast]
      rw [this, zero_def, k2] at hslope
      exact fin_inj.1 hslope
    rw [← hs]
    exact k3 (by rw [hsl]; exact hlt)
  exact ⟨hconv, u, hu, hc.1 hconv⟩

/-- **C78**, convergence for large iteration limits: for every graph without links, or with fewer
edges than admissible pairs of a vertex with outgoing and a vertex with incoming rows, the default
fit converges for all iteration limits from some number on. -/
theorem C78_eventually (M : Model) (hist : List (Q × Bool)) (hkw : Setting kw s) {atol rtol : ℝ}
    (hat : 0 < atol) (hrt : 0 ≤ rtol) (hv : v ≠ []) (ht : Table v e)
    (hlt : e = [] ∨ (e.map (fun r => (r.src, r.dst))).toFinset.card < support s e) :
    ∃ N : ℕ, ∀ maxiter ≥ N, ∃ R, run M v e hist kw .none .density ⟨atol, rtol, maxiter⟩ = .ok R ∧
      R.solution.converged = true := by
  have hrun : ∀ k : ℕ, ∃ R, run M v e hist kw .none .density ⟨atol, rtol, k⟩ = .ok R := fun k =>
    (C78_run (o := ⟨atol, rtol, k⟩) hkw hat hrt).1.2 ⟨hv, ht⟩
  obtain ⟨R0, h0⟩ := hrun 0
  obtain ⟨-, hg0, hm0, -⟩ := run_ok (o := ⟨atol, rtol, 0⟩) hkw hat hrt h0
  have hF := isFitter M (outS R0.graph) (inS R0.graph)
  have hroot : ∃ root : ℝ≥0, (R0.withParam M (fin root)).exp_edges R0.model.num_vertices.toNat
        (loopsOf R0.model.selfloops) = fin ((e.map (fun r => (r.src, r.dst))).toFinset.card : ℝ) := by
    by_cases he : e = []
    · subst he
      refine ⟨0, ?_⟩
      rw [expected_eq (M := M) hm0 0, Fit.Fitter.exp_edges hF, NNReal.coe_zero,
        (Fit.Fitter.isObj hF _ _).zero]
      simp
    · exact (C78_attainable (o := ⟨atol, rtol, 0⟩) hkw hat hrt he h0).1.2 (hlt.resolve_left he)
  obtain ⟨root, hroot⟩ := hroot
  obtain ⟨slope, hslope⟩ : ∃ slope, (density_fit_fun M R0.model 0).2 = fin slope := by
    refine ⟨Fit.Fitter.objDer _ hF R0.graph.num_vertices s 0, ?_⟩
    have := Fit.Fitter.rep hF R0.graph.num_vertices s 0 le_rfl
    rw [← zero_def] at this
    have hd : density_fit_fun M R0.model = (M.fitter (outS R0.graph) (inS R0.graph)).func
        R0.graph.num_vertices s := by
      rw [hm0]
      simp only [density_fit_fun, Fit.Fitter.func, fitter_pj, modelOf, loopsOf, Int.toNat_natCast]
    rw [hd, this]
  set tol : ℝ := atol + rtol * (e.map (fun r => (r.src, r.dst))).toFinset.card with htol
  have htol0 : 0 < tol := by positivity
  obtain ⟨N, hN⟩ := exists_nat_gt (slope * root / tol)
  refine ⟨N, fun k hk => ?_⟩
  obtain ⟨R, h⟩ := hrun k
  obtain ⟨-, hg, hm, -⟩ := run_ok (o := ⟨atol, rtol, k⟩) hkw hat hrt h
  have hgg : R.graph = R0.graph := by rw [hg] at hg0; exact Except.ok.inj hg0
  have hmm : R.model = R0.model := by rw [hm, hm0, hgg]
  refine ⟨R, h, (C78_converges (o := ⟨atol, rtol, k⟩) hkw hat hrt h (root := root)
    (slope := slope) ?_ ?_ ?_).1⟩
  · unfold Result.withParam at hroot ⊢; rw [hmm]; exact hroot
  · rw [hmm]; exact hslope
  · rw [div_lt_iff₀ htol0] at hN
    refine hN.trans_le (mul_le_mul_of_nonneg_right ?_ htol0.le)
    exact_mod_cast hk

/-- **C78**, Spark: the Spark constructor makes the same model object from the graph, and in
whatever order the partial sums over the blocks are added up, `fit` does what the fit of the dense
class does on that object. -/
theorem C78_spark {g : Obj ι γ ℝ}
    {kw' : List (Validate.Spark.SKey × Validate.Val)}
    {ob : Validate.Spark.Obj Validate.FitnessModel.Obj}
    (h : Validate.Spark.FitnessModel.init [.context, .val (graphVal .sparse g hist)] kw' = .ok ob)
    (func : XR → XR × XR)
    (hfunc : ∀ param, Spark.Folds Spark.addPair (0, 0) (Spark.jacTasks M.p_jac_ij
      ob.model.num_vertices.toNat ob.p_blocks ob.model.prop_out ob.model.prop_in
      (loopsOf ob.model.selfloops) param) (func param)) (x0 : Fit.X0) (method : Fit.Method) :
    Validate.FitnessModel.init [graphVal .sparse g hist] (Validate.Spark.others kw') = .ok ob.model ∧
    Fit.fitSingle func (edgesOf ob.model.num_edges) x0 method o = fit M ob.model x0 method o := by
  obtain ⟨h1, k, hk, h2, -⟩ := (Validate.Spark.C77_fitness_refines.ok _ _ _).1 h
  have hp : 0 < ob.p_blocks := by
    rw [h2]
    refine Validate.Spark.used_pos ?_
    rcases hk with ⟨-, rfl⟩ | ⟨w, -, -, hpos⟩
    · norm_num
    · omega
  refine ⟨h1, ?_⟩
  have : func = density_fit_fun M ob.model := by
    funext param
    exact Spark.C43_objective _ hp _ _ _ _ (hfunc param)
  rw [this]; rfl

end

/-! ### Witnesses -/

/-- A path of two links. -/
def pathV : List (ℕ × ℕ) := [(0, 0), (1, 0), (2, 0)]
def pathE : List (Row ℕ ℝ) := [⟨0, 1, 2⟩, ⟨1, 2, 3⟩]

theorem path_table : Table pathV pathE := by
  refine ⟨by decide, ?_, ?_⟩ <;> simp [pathV, pathE]

theorem path_support : support false pathE = 3 ∧
    (pathE.map (fun r => (r.src, r.dst))).toFinset.card = 2 := by
  constructor
  · simp only [support, pathE, List.map_cons, List.map_nil]; decide
  · simp only [pathE, List.map_cons, List.map_nil]; decide

/-- The hypotheses of the theorems hold for the path: the run succeeds, the links are possible, and
exactly one parameter reproduces the two edges. -/
example (M : Model) (hist : List (Q × Bool)) (o : Fit.Opts) (hat : 0 < o.atol) (hrt : 0 ≤ o.rtol) :
    ∃ R : Result ℕ ℕ, run M pathV pathE hist [] .none .density o = .ok R ∧
      ∃! d : ℝ≥0, (R.withParam M (fin d)).exp_edges R.model.num_vertices.toNat
        (loopsOf R.model.selfloops) = fin 2 := by
  have hkw : Setting [] false := Or.inl ⟨rfl, rfl⟩
  obtain ⟨R, hR⟩ := (C78_run (M := M) (v := pathV) (e := pathE) (hist := hist) hkw hat hrt).1.2
    ⟨by simp [pathV], path_table⟩
  obtain ⟨h1, h2⟩ := C78_attainable hkw hat hrt (by simp [pathE]) hR
  have h3 := h2 (h1.2 (by rw [path_support.1, path_support.2]; norm_num))
  rw [path_support.2] at h3
  exact ⟨R, hR, by simpa using h3⟩

/-- The fit of the path converges for large iteration limits. -/
example (M : Model) (hist : List (Q × Bool)) :
    ∃ N : ℕ, ∀ maxiter ≥ N, ∃ R : Result ℕ ℕ,
      run M pathV pathE hist [] .none .density ⟨1e-24, 1e-9, maxiter⟩ = .ok R ∧
        R.solution.converged = true :=
  C78_eventually M hist (Or.inl ⟨rfl, rfl⟩) (by norm_num) (by norm_num) (by simp [pathV]) path_table
    (Or.inr (by rw [path_support.1, path_support.2]; norm_num))

/-- The same path with self-loops allowed has four admissible pairs. -/
example : support true pathE = 4 := by
  simp only [support, pathE, List.map_cons, List.map_nil]; decide

/-- **C78** in full (a model made from a graph reproduces the graph's number of edges) is false.
A graph whose only link is a self-loop is fitted, by default, with self-loops excluded: the fit does
not converge. And for the graph with the single link from one vertex to another no finite parameter
reproduces the one edge, with or without self-loops. -/
theorem C78_violated (M : Model) (hist : List (Q × Bool)) (o : Fit.Opts) (hat : 0 < o.atol)
    (hrt : 0 ≤ o.rtol) (htol : o.atol + o.rtol < 1) :
    (∃ R : Result ℕ ℕ, run M [(0, 0)] [⟨0, 0, 1⟩] hist [] .none .density o = .ok R ∧
      R.solution.converged = false) ∧
    ∀ s, ∃ R : Result ℕ ℕ,
      run M [(0, 0), (1, 0)] [⟨0, 1, 1⟩] hist [(.selfloops, .bool s)] .none .density o = .ok R ∧
      ∀ d : ℝ≥0, (R.withParam M (fin d)).exp_edges R.model.num_vertices.toNat
        (loopsOf R.model.selfloops) ≠ fin 1 := by
  constructor
  · have hkw : Setting [] false := Or.inl ⟨rfl, rfl⟩
    obtain ⟨R, hR⟩ := (C78_run (M := M) (v := [(0, 0)]) (e := [⟨0, 0, 1⟩]) (hist := hist) hkw hat
      hrt).1.2 ⟨by simp, by simp, by simp, by simp⟩
    refine ⟨R, hR, C78_unattainable hkw hat hrt hR ?_⟩
    have h1 : support false ([⟨0, 0, 1⟩] : List (Row ℕ ℝ)) = 0 := by
      simp only [support, List.map_cons, List.map_nil]; decide
    rw [h1]
    simpa using htol
  · intro s
    have hkw : Setting [(.selfloops, .bool s)] s := Or.inr rfl
    obtain ⟨R, hR⟩ := (C78_run (M := M) (v := [(0, 0), (1, 0)]) (e := [⟨0, 1, 1⟩]) (hist := hist)
      hkw hat hrt).1.2 ⟨by simp, by simp, by simp, by simp⟩
    refine ⟨R, hR, fun d hd => ?_⟩
    have h1 : support s ([⟨0, 1, 1⟩] : List (Row ℕ ℝ)) = 1 := by
      simp only [support, List.map_cons, List.map_nil]; cases s <;> decide
    obtain ⟨h2, -⟩ := C78_attainable hkw hat hrt (by simp) hR
    have := h2.1 ⟨d, by simpa using hd⟩
    rw [h1] at this
    simp at this

/-- The dense classes violate the formula for the probability when an ordered pair occurs in several
rows: the last row replaces the others. For rows of weights 1 and 2 the probability is that of
weight 2, while the sparse classes use the sum 3. -/
theorem C78_repeated_violated (M : Model) (hist : List (Q × Bool)) (o : Fit.Opts) (hat : 0 < o.atol)
    (hrt : 0 ≤ o.rtol) (d : ℝ≥0) :
    ∃ (R : Result ℕ ℕ) (i j : ℕ), run M dupV dupE hist [] .none .density o = .ok R ∧
      R.graph.id_dict.lookup 0 = some i ∧ R.graph.id_dict.lookup 1 = some j ∧
      (R.withParam M (fin d)).p i j = fin (match M with
        | .denseFit | .denseInv => connect M d 2 2
        | .sparseFit | .sparseInv => connect M d 3 3) := by
  have hkw : Setting [] false := Or.inl ⟨rfl, rfl⟩
  obtain ⟨R, hR⟩ := (C78_run (M := M) (v := dupV) (e := dupE) (hist := hist) hkw hat hrt).1.2
    ⟨by simp [dupV], dupV_nodup, dupE_known, fun r hr => by simpa [Dtype.pos] using dupE_pos r hr⟩
  obtain ⟨hv, hg, hm, -⟩ := run_ok hkw hat hrt hR
  have hb := mkOf_built hg
  have hi := idOf_some (v := dupV) (x := 0) (by simp [dupV])
  have hj := idOf_some (v := dupV) (x := 1) (by simp [dupV])
  have he := dup_edges hi hj [1, 2]
  obtain ⟨-, -, -, e1, e2, -⟩ := built_ok hb
  have hlti := idOf_lt dupV_nodup hi
  have hltj := idOf_lt dupV_nodup hj
  refine ⟨R, _, _, hR, by rw [e2]; exact hi, by rw [e2]; exact hj, ?_⟩
  have hw : (R.withParam M (fin d)).p ((idOf dupV 0).getD 0) ((idOf dupV 1).getD 0) =
      fin (connect M d (outS R.graph ((idOf dupV 0).getD 0)) (inS R.graph ((idOf dupV 1).getD 0))) := by
    unfold Result.withParam
    rw [hm]
    exact p_fin M _ _ d _ _
  rw [hw, coe_outS hb, coe_inS hb]
  have hsum : ∀ w : ℝ, (∀ i' j', R.graph.adj i' j' =
      if i' = (idOf dupV 0).getD 0 ∧ j' = (idOf dupV 1).getD 0 then w else 0) →
      rowSums R.graph.num_vertices R.graph.adj ((idOf dupV 0).getD 0) = w ∧
      colSums R.graph.num_vertices R.graph.adj ((idOf dupV 1).getD 0) = w := by
    intro w hw
    constructor
    · show ∑ j ∈ Finset.range R.graph.num_vertices, R.graph.adj _ j = w
      simp only [hw, true_and, Finset.sum_ite_eq', Finset.mem_range, e1, hltj, if_true]
    · show ∑ j ∈ Finset.range R.graph.num_vertices, R.graph.adj j _ = w
      simp only [hw, and_true, Finset.sum_ite_eq', Finset.mem_range, e1, hlti, if_true]
  have hE : (dupE : List (Row ℕ ℝ)) = [1, 2].map (fun w => (⟨0, 1, w⟩ : Row ℕ ℝ)) := rfl
  cases hbk : M.backend with
  | dense =>
    rw [hbk] at hg
    obtain ⟨h1, h2⟩ := hsum 2 (by
      intro i' j'
      rw [dense_adj hg, hE, he]
      by_cases h : i' = (idOf dupV 0).getD 0 ∧ j' = (idOf dupV 1).getD 0
      · simp [assign, h]
      · rw [if_neg h]
        exact assign_none _ (by simpa using h))
    rw [h1, h2]
    revert hbk
    cases M <;> simp [Model.backend]
  | sparse =>
    rw [hbk] at hg
    obtain ⟨h1, h2⟩ := hsum 3 (by
      intro i' j'
      rw [sparse_adj hg, hE, he]
      by_cases h : i' = (idOf dupV 0).getD 0 ∧ j' = (idOf dupV 1).getD 0
      · rw [if_pos h]
        simp only [coo, h, List.map_cons, List.map_nil, List.foldl_cons, List.foldl_nil, and_self,
          if_true]
        show (0 + 1 + 2 : ℝ) = 3
        norm_num
      · rw [if_neg h]
        exact coo_none _ (by simpa using h))
    rw [h1, h2]
    revert hbk
    cases M <;> simp [Model.backend]

end

end Verif.Flow
