import Verif.Flow.Model
import Verif.Solver.FitProps
import Verif.Validate.Props

/-! # Lemmas on runs -/

namespace Verif.Flow

open XR Spec
open scoped ENNReal NNReal

noncomputable section

/-- The fitted model among those of the solver. -/
def Model.fitter (M : Model) (x y : ℕ → ℝ≥0) : Fit.Fitter :=
  match M with
  | .sparseFit => Fit.sparseFit x y (fun _ _ => 1)
  | .sparseInv => Fit.sparseInv x y (fun _ _ => 1)
  | .denseFit => Fit.denseFit x y (fun _ _ => 1)
  | .denseInv => Fit.denseInv x y (fun _ _ => 1)

theorem isFitter (M : Model) (x y : ℕ → ℝ≥0) : Fit.IsFitter (M.fitter x y) := by
  cases M
  · exact .sparseFit _ _ _
  · exact .sparseInv _ _ _
  · exact .denseFit _ _ _
  · exact .denseInv _ _ _

theorem arr_toENN (x : ℕ → ℝ≥0) : Ens.arr (Fit.toENN x) = Fit.arrN x := by
  funext i
  exact Fit.ofENN_coe _

theorem arr_one : (fun i => Ens.arr ((fun i => Fit.toENN ((fun _ _ => 1 : ℕ → ℕ → ℝ≥0) i)) i)) =
    (fun _ _ => 1 : ℕ → ℕ → XR) := by
  funext i j
  rw [arr_toENN]
  simp [Fit.arrN, one_def]

theorem fitter_ens (M : Model) (x y : ℕ → ℝ≥0) (d : ℝ≥0∞) :
    (M.fitter x y).ens d = M.ens (ofENN d) (Fit.arrN x) (Fit.arrN y) := by
  have h1 := arr_one
  cases M <;>
    simp only [Model.fitter, Model.ens, Fit.sparseFit, Fit.sparseInv, Fit.denseFit, Fit.denseInv,
      Ens.sparseFit, Ens.sparseInv, Ens.denseFit, Ens.denseInv, arr_toENN] at h1 ⊢ <;>
    (try rw [h1])

theorem fitter_pj (M : Model) (x y : ℕ → ℝ≥0) :
    (M.fitter x y).pj = fun d i j => M.p_jac_ij d (Fit.arrN x i) (Fit.arrN y j) := by
  have h1 : ∀ j, Fit.arrN (fun _ => 1) j = 1 := by
    intro j; simp [Fit.arrN, one_def]
  cases M <;>
    simp only [Model.fitter, Model.p_jac_ij, Fit.sparseFit, Fit.sparseInv, Fit.denseFit,
      Fit.denseInv, h1]

theorem fitter_linkable (M : Model) (x y : ℕ → ℝ≥0) (i j : ℕ) :
    (M.fitter x y).linkable i j ↔ x i ≠ 0 ∧ y j ≠ 0 := by
  cases M <;> simp [Model.fitter, Fit.sparseFit, Fit.sparseInv, Fit.denseFit, Fit.denseInv]

theorem ens_isModel (M : Model) (x y : ℕ → ℝ≥0) (d : ℝ≥0∞) : ((M.fitter x y).ens d).IsModel := by
  cases M
  · exact .sparseFit _ _ _ _
  · exact .sparseInv _ _ _ _
  · exact .denseFit _ _ _ _
  · exact .denseInv _ _ _ _

section Graph

open Graph

variable {ι γ : Type} [LinearOrder ι] [LinearOrder γ]

theorem adj_nonneg {v : List (ι × γ)} {e : List (Row ι ℝ)} {g : Obj ι γ ℝ} (h : Built v e g)
    (i j : ℕ) : 0 ≤ g.adj i j := by
  obtain ⟨-, -, h3, -, -, -, -, ha⟩ := built_ok h
  by_cases hr : ∃ r ∈ Graph.edgesOf v e, i = r.src ∧ j = r.dst
  · have : Dtype.pos (g.adj i j) = true := by
      rcases ha with ha | ha
      · rw [ha]; exact assign_pos _ (edges_pos h3) i j hr
      · rw [ha]; exact coo_pos _ (edges_pos h3) i j hr
    have : 0 < g.adj i j := by simpa [Dtype.pos] using this
    exact this.le
  · have hn : ∀ r ∈ Graph.edgesOf v e, ¬ (i = r.src ∧ j = r.dst) := fun r hr' hh => hr ⟨r, hr', hh⟩
    rcases ha with ha | ha
    · rw [ha, assign_none _ hn]; exact le_rfl
    · rw [ha, coo_none _ hn]; exact le_rfl

/-- Out- and in-strengths. -/
def outS (g : Obj ι γ ℝ) (i : ℕ) : ℝ≥0 := (rowSums g.num_vertices g.adj i).toNNReal
def inS (g : Obj ι γ ℝ) (i : ℕ) : ℝ≥0 := (colSums g.num_vertices g.adj i).toNNReal

variable {v : List (ι × γ)} {e : List (Row ι ℝ)} {g : Obj ι γ ℝ}

theorem coe_outS (h : Built v e g) (i : ℕ) : (outS g i : ℝ) = rowSums g.num_vertices g.adj i :=
  Real.coe_toNNReal _ (show 0 ≤ ∑ j ∈ Finset.range g.num_vertices, g.adj i j from
    Finset.sum_nonneg fun j _ => adj_nonneg h i j)

theorem coe_inS (h : Built v e g) (i : ℕ) : (inS g i : ℝ) = colSums g.num_vertices g.adj i :=
  Real.coe_toNNReal _ (show 0 ≤ ∑ j ∈ Finset.range g.num_vertices, g.adj j i from
    Finset.sum_nonneg fun j _ => adj_nonneg h j i)

theorem onto (h : Built v e g) {j : ℕ} (hj : j < g.num_vertices) :
    ∃ y, g.id_dict.lookup y = some j := by
  obtain ⟨h1, -, -, e1, e2, -⟩ := built_ok h
  have hlen : (npUnique (v.map Prod.fst)).length = v.length := by
    rw [(npUnique_perm h1).length_eq, List.length_map]
  obtain ⟨y, hy⟩ := (idOf_numbering v).onto j (by rw [hlen, ← e1]; exact hj)
  exact ⟨y, by rw [e2]; exact hy⟩

theorem lookup_row (h : Built v e g) {r : Row ι ℝ} (hr : r ∈ e) :
    ∃ i j, g.id_dict.lookup r.src = some i ∧ g.id_dict.lookup r.dst = some j ∧
      i < g.num_vertices ∧ j < g.num_vertices := by
  obtain ⟨h1, h2, -, e1, e2, -⟩ := built_ok h
  refine ⟨(idOf v r.src).getD 0, (idOf v r.dst).getD 0, ?_, ?_, ?_, ?_⟩
  · rw [e2]; exact idOf_some (h2 r hr).1
  · rw [e2]; exact idOf_some (h2 r hr).2
  · rw [e1]; exact idOf_lt h1 (idOf_some (h2 r hr).1)
  · rw [e1]; exact idOf_lt h1 (idOf_some (h2 r hr).2)

theorem lookup_lt (h : Built v e g) {x : ι} {i : ℕ} (hx : g.id_dict.lookup x = some i) :
    i < g.num_vertices := by
  obtain ⟨h1, -, -, e1, e2, -⟩ := built_ok h
  rw [e2] at hx
  rw [e1]; exact idOf_lt h1 hx

theorem lookup_inj (h : Built v e g) {x y : ι} {i : ℕ} (hx : g.id_dict.lookup x = some i)
    (hy : g.id_dict.lookup y = some i) : x = y := by
  obtain ⟨-, -, -, -, e2, -⟩ := built_ok h
  rw [e2] at hx hy
  exact (idOf_numbering v).inj hx hy

omit [LinearOrder ι] [LinearOrder γ] in
theorem ne0_iff (i j : ℕ) : ne0 g.adj i j = true ↔ g.adj i j ≠ 0 := by
  simp [ne0, Dtype.nz]

theorem outS_ne (h : Built v e g) {x : ι} {i : ℕ} (hx : g.id_dict.lookup x = some i) :
    outS g i ≠ 0 ↔ ∃ r ∈ e, r.src = x := by
  rw [← NNReal.coe_ne_zero, coe_outS h]
  change ∑ j ∈ Finset.range _, g.adj i j ≠ 0 ↔ _
  rw [Ne, Finset.sum_eq_zero_iff_of_nonneg fun j _ => adj_nonneg h i j]
  push Not
  constructor
  · rintro ⟨j, hj, hne⟩
    obtain ⟨y, hy⟩ := onto h (Finset.mem_range.1 hj)
    obtain ⟨r, hr, h1, -⟩ := (C21_connected h hx hy).1.1 ((ne0_iff i j).2 hne)
    exact ⟨r, hr, h1⟩
  · rintro ⟨r, hr, rfl⟩
    obtain ⟨i', j, hi, hj, -, hlt⟩ := lookup_row h hr
    exact ⟨j, Finset.mem_range.2 hlt,
      (ne0_iff i j).1 ((C21_connected h hx hj).1.2 ⟨r, hr, rfl, rfl⟩)⟩

theorem inS_ne (h : Built v e g) {x : ι} {i : ℕ} (hx : g.id_dict.lookup x = some i) :
    inS g i ≠ 0 ↔ ∃ r ∈ e, r.dst = x := by
  rw [← NNReal.coe_ne_zero, coe_inS h]
  change ∑ j ∈ Finset.range _, g.adj j i ≠ 0 ↔ _
  rw [Ne, Finset.sum_eq_zero_iff_of_nonneg fun j _ => adj_nonneg h j i]
  push Not
  constructor
  · rintro ⟨j, hj, hne⟩
    obtain ⟨y, hy⟩ := onto h (Finset.mem_range.1 hj)
    obtain ⟨r, hr, -, h1⟩ := (C21_connected h hy hx).1.1 ((ne0_iff j i).2 hne)
    exact ⟨r, hr, h1⟩
  · rintro ⟨r, hr, rfl⟩
    obtain ⟨j, i', hj, hi, hlt, -⟩ := lookup_row h hr
    exact ⟨j, Finset.mem_range.2 hlt,
      (ne0_iff j i).1 ((C21_connected h hj hx).1.2 ⟨r, hr, rfl, rfl⟩)⟩

/-- Number of ordered pairs in the edge table. -/
def numPairs (e : List (Row ι ℝ)) : ℕ := (e.map (fun r => (r.src, r.dst))).toFinset.card

theorem graphVal_eq {b : Backend} (h : mkOf b v e = .ok g) (hist : List (Q × Bool)) :
    ∃ tw gr, graphVal b g hist = .graph .digraph v.length (numPairs e) tw (fun i => (outS g i : ℝ))
      (fun i => (inS g i : ℝ)) gr 0 (fun _ => 0) ([], []) := by
  have hb := mkOf_built h
  refine ⟨some ((View.single b true g).fresh 0 0 .total_weight),
    some (fun i => g.groups.getD i 0), ?_⟩
  unfold graphVal
  simp only [C70_history]
  have h1 : (View.single b true g).fresh 0 0 .num_edges = (numPairs e : ℝ) := (C24_directed hb).2.2.1
  rw [h1, Nat.floor_natCast]
  have h2 : (fun i => (View.single b true g).fresh i 0 .out_strength) = fun i => (outS g i : ℝ) := by
    funext i; exact (coe_outS hb i).symm
  have h3 : (fun i => (View.single b true g).fresh i 0 .in_strength) = fun i => (inS g i : ℝ) := by
    funext i; exact (coe_inS hb i).symm
  rw [h2, h3, (built_ok hb).2.2.2.1]

/-- The keyword arguments considered: none, or `selfloops=s`. -/
def Setting (kw : List (Validate.Key × Validate.Val)) (s : Bool) : Prop :=
  (kw = [] ∧ s = false) ∨ kw = [(.selfloops, .bool s)]

theorem init_eq {kw : List (Validate.Key × Validate.Val)} {s : Bool} (hkw : Setting kw s)
    (n m : ℕ) (hn : n ≠ 0) (tw : Option ℝ) (x y : ℕ → ℝ≥0) (gr : Option (ℕ → ℕ)) :
    Validate.FitnessModel.init [.graph .digraph n m tw (fun i => (x i : ℝ)) (fun i => (y i : ℝ)) gr 0
      (fun _ => 0) ([], [])] kw =
    .ok ⟨n, Fit.arrN x, Fit.arrN y, some (.num (fin m)), none, .bool s⟩ := by
  have hn0 : (0 : ℝ) < n := by exact_mod_cast Nat.pos_of_ne_zero hn
  have hc : Validate.count (.num (fin n)) = .ok (n : ℤ) := by
    have ht : Validate.trunc (n : ℝ) = n := by
      unfold Validate.trunc; rw [if_pos hn0.le]; simp
    simp only [Validate.count, Validate.intOf, ht, Int.natCast_eq_zero, hn, if_false]
    have : (n : ℝ) / ((n : ℤ) : ℝ) = 1 := by
      rw [Int.cast_natCast]; exact div_self hn0.ne'
    rw [if_pos this]
    simp only [bind, Except.bind]
    rw [if_neg (by omega)]
  have hv : ∀ z : ℕ → ℝ≥0, Validate.vector n (Validate.vec n (fun i => (z i : ℝ))) =
      .ok (Fit.arrN z) := by
    intro z
    have : (Validate.entries [n] (fun i => fin ((z i : ℝ)))).all (fun x => leb 0 x) = true := by
      simp [Validate.entries, zero_def]
    simp only [Validate.vector, Validate.vec, List.map_cons, List.map_nil, Int.ofNat_eq_natCast,
      if_true, this, reduceCtorEq, if_false]
    rfl
  have hm : Validate.number (.num (fin m)) = .ok (.num (fin m)) := by
    simp [Validate.number, Validate.unwrap, Validate.timesOne, Validate.isNegative, bind,
      Except.bind, zero_def]
  have key : ∀ f : Option Validate.Val, Validate.FitnessModel.check
      { num_vertices := some (.num (fin n)), num_edges := some (.num (fin m)),
        prop_out := some (Validate.vec n (fun i => (x i : ℝ))),
        prop_in := some (Validate.vec n (fun i => (y i : ℝ))), selfloops := f } =
      .ok ⟨n, Fit.arrN x, Fit.arrN y, some (.num (fin m)), none, f.getD (.bool false)⟩ := by
    intro f
    have hr : ∀ z, Validate.required (some (Validate.vec n z)) = .ok (Validate.vec n z) :=
      fun z => rfl
    simp [Validate.FitnessModel.check, hc, hr, hv, Validate.numberIfSet, hm, Validate.paramIfSet,
      bind, Except.bind]
  rcases hkw with ⟨rfl, rfl⟩ | rfl
  · exact key none
  · exact key (some (.bool s))

theorem init_empty (kw : List (Validate.Key × Validate.Val)) {s : Bool} (hkw : Setting kw s)
    (m : ℕ) (tw : Option ℝ) (x y : ℕ → ℝ) (gr : Option (ℕ → ℕ)) :
    Validate.FitnessModel.init [.graph .digraph 0 m tw x y gr 0 (fun _ => 0) ([], [])] kw =
    .error .notInteger := by
  have hc : Validate.count (.num (fin ((0 : ℕ) : ℝ))) = .error .notInteger := by
    simp [Validate.count, Validate.intOf, Validate.trunc, bind, Except.bind]
  have key : ∀ (f : Validate.Fields), f.num_vertices = some (.num (fin ((0 : ℕ) : ℝ))) →
      Validate.FitnessModel.check f = .error .notInteger := by
    intro f hf
    simp only [Validate.FitnessModel.check, hf, hc, bind, Except.bind]
  rcases hkw with ⟨rfl, rfl⟩ | rfl
  · exact key
      { num_vertices := some (.num (fin ((0 : ℕ) : ℝ))), num_edges := some (.num (fin m)),
        prop_out := some (Validate.vec 0 x), prop_in := some (Validate.vec 0 y) } rfl
  · exact key
      { num_vertices := some (.num (fin ((0 : ℕ) : ℝ))), num_edges := some (.num (fin m)),
        prop_out := some (Validate.vec 0 x), prop_in := some (Validate.vec 0 y),
        selfloops := some (.bool s) } rfl

/-- The model object made from a graph. -/
def modelOf (g : Obj ι γ ℝ) (e : List (Row ι ℝ)) (s : Bool) : Validate.FitnessModel.Obj :=
  ⟨g.num_vertices, Fit.arrN (outS g), Fit.arrN (inS g), some (.num (fin (numPairs e))), none, .bool s⟩

theorem run_eq {M : Model} {kw : List (Validate.Key × Validate.Val)} {s : Bool}
    (hkw : Setting kw s) (h : mkOf M.backend v e = .ok g) (hv : v ≠ []) (hist : List (Q × Bool))
    (x0 : Fit.X0) (method : Fit.Method) (o : Fit.Opts) :
    run M v e hist kw x0 method o =
      (Fit.fitSingle ((M.fitter (outS g) (inS g)).func g.num_vertices s) (some (numPairs e : ℝ))
        x0 method o).mapError .fit >>= fun sol => .ok ⟨g, modelOf g e s, sol⟩ := by
  obtain ⟨tw, gr, hg⟩ := graphVal_eq h hist
  have e1 := (built_ok (mkOf_built h)).2.2.2.1
  have hn : v.length ≠ 0 := by simpa using hv
  unfold run
  rw [h]
  simp only [Except.mapError, bind, Except.bind]
  rw [hg, init_eq hkw _ _ hn]
  simp only [fit, density_fit_fun, Fit.Fitter.func, fitter_pj, edgesOf, loopsOf, Int.toNat_natCast,
    modelOf, e1]

theorem run_error {M : Model} {kw : List (Validate.Key × Validate.Val)} (hist : List (Q × Bool))
    (x0 : Fit.X0) (method : Fit.Method) (o : Fit.Opts) {er : Graph.Err}
    (h : mkOf M.backend v e = .error er) : run M v e hist kw x0 method o = .error (.graph er) := by
  unfold run
  rw [h]
  rfl

theorem run_empty {M : Model} {kw : List (Validate.Key × Validate.Val)} {s : Bool}
    (hkw : Setting kw s) (h : mkOf M.backend ([] : List (ι × γ)) e = .ok g) (hist : List (Q × Bool))
    (x0 : Fit.X0) (method : Fit.Method) (o : Fit.Opts) :
    run M ([] : List (ι × γ)) e hist kw x0 method o = .error (.model .notInteger) := by
  obtain ⟨tw, gr, hg⟩ := graphVal_eq h hist
  unfold run
  rw [h]
  simp only [Except.mapError, bind, Except.bind]
  rw [hg, List.length_nil, init_empty kw hkw]

end Graph

end

end Verif.Flow
