import Verif.Sampled.Model
import Verif.Graph.QueryProps
import Verif.Graph.Props
import Verif.Layer.MethodProps
import Verif.Ensemble.ModelProps

/-!
# C74: the objects returned by `sample`
-/

namespace Verif

noncomputable section

open XR Spec DiGraphEnsemble MeasureTheory
open scoped ENNReal

namespace Sampled

open Graph (Mat Row coo assign get_num_bytes validDtype)

/-! ## Specification -/

/-- Names of `n` things: those of the reference, or the numbers below `n`. -/
def Names {α : Type} [DecidableEq α] (n : ℕ) (ref : Option (List (α × ℕ)))
    (d : List ((α ⊕ ℕ) × ℕ)) : Prop :=
  match ref with
  | none => (∀ i, d.lookup (.inr i) = if i < n then some i else none) ∧ ∀ x, d.lookup (.inl x) = none
  | some r => (∀ x, d.lookup (.inl x) = r.lookup x) ∧ ∀ i, d.lookup (.inr i) = none

/-- A matrix of links stored as booleans or as zeros and ones. -/
def Adj.Links (A : Adj) (G : Set (ℕ × ℕ)) : Prop :=
  match A with
  | .bool B => ∀ i j, B i j = true ↔ (i, j) ∈ G
  | .float B => ∀ i j, ((i, j) ∈ G → B i j = 1) ∧ ((i, j) ∉ G → B i j = 0)

/-! ## Lemmas -/

instance lawfulSum {α β : Type} [BEq α] [LawfulBEq α] [BEq β] [LawfulBEq β] :
    LawfulBEq (α ⊕ β) where
  eq_of_beq {a b} h := by
    cases a <;> cases b
    · exact congrArg Sum.inl (eq_of_beq (α := α) h)
    · cases h
    · cases h
    · exact congrArg Sum.inr (eq_of_beq (α := β) h)
  rfl {a} := by
    cases a
    · exact beq_self_eq_true (α := α) _
    · exact beq_self_eq_true (α := β) _

theorem rangeDict_eq (α : Type) (n : ℕ) :
    rangeDict α n = (List.range n).map (fun i => ((Sum.inr i : α ⊕ ℕ), i)) := by
  unfold rangeDict
  induction n with
  | zero => rfl
  | succ n ih => rw [List.range_succ, List.foldl_append, ih, List.map_append]; rfl

theorem lookup_map_key {α β : Type} [DecidableEq α] [BEq β] [LawfulBEq β] (f : α → β)
    (hf : Function.Injective f) (l : List (α × ℕ)) (x : α) :
    (l.map (fun e => (f e.1, e.2))).lookup (f x) = l.lookup x := by
  induction l with
  | nil => rfl
  | cons a t ih =>
    obtain ⟨a, k⟩ := a
    rw [List.map_cons, List.lookup_cons, List.lookup_cons]
    by_cases h : x = a
    · subst h; simp
    · have h1 : (f x == f a) = false := by simpa using fun hc => h (hf hc)
      have h2 : (x == a) = false := by simpa using h
      simp only [h1, h2]
      exact ih

theorem lookup_map_other {α β : Type} [BEq β] [LawfulBEq β] (f : α → β) (y : β)
    (hf : ∀ x, y ≠ f x) (l : List (α × ℕ)) :
    (l.map (fun e => (f e.1, e.2))).lookup y = none := by
  rw [List.lookup_eq_none_iff]
  intro p hp
  obtain ⟨a, -, rfl⟩ := List.mem_map.1 hp
  simpa using hf a.1

theorem lookup_range (n i : ℕ) :
    ((List.range n).map (fun k => (k, k))).lookup i = if i < n then some i else none := by
  induction n with
  | zero => rfl
  | succ n ih =>
    rw [List.range_succ, List.map_append, List.lookup_append, ih]
    by_cases h : i < n
    · simp [h, Nat.lt_succ_of_lt h]
    · by_cases h' : i = n
      · subst h'; simp
      · have : ¬ i < n + 1 := by omega
        have h1 : (i == n) = false := by simpa using h'
        simp [h, this, List.lookup_cons, h1]

theorem names_range {α : Type} [DecidableEq α] (n : ℕ) : Names n none (rangeDict α n) := by
  have e : rangeDict α n
      = ((List.range n).map (fun k => (k, k))).map (fun e => ((Sum.inr e.1 : α ⊕ ℕ), e.2)) := by
    rw [rangeDict_eq, List.map_map]; rfl
  constructor
  · intro i
    rw [e]
    exact (lookup_map_key (Sum.inr : ℕ → α ⊕ ℕ) Sum.inr_injective _ i).trans (lookup_range n i)
  · intro x
    rw [e]
    exact lookup_map_other (Sum.inr : ℕ → α ⊕ ℕ) (.inl x) (fun _ => nofun) _

theorem names_ref {α : Type} [DecidableEq α] (n : ℕ) (d : List (α × ℕ)) :
    Names n (some d) (refDict d) :=
  ⟨fun x => lookup_map_key Sum.inl Sum.inl_injective d x, fun i => lookup_map_other (Sum.inl : α → α ⊕ ℕ) (.inr i) (fun _ => nofun) d⟩

theorem nz_bool (A : Mat Bool) (i j : ℕ) : Graph.ne0 A i j = A i j := rfl

theorem coo_bool (l : List (ℕ × ℕ)) (i j : ℕ) : coo (boolRows l) i j = true ↔ (i, j) ∈ l := by
  rw [← nz_bool (coo (boolRows l)), Graph.coo_nz]
  · unfold boolRows
    constructor
    · rintro ⟨r, hr, rfl, rfl⟩
      obtain ⟨e, he, rfl⟩ := List.mem_map.1 hr
      exact he
    · intro h
      exact ⟨_, List.mem_map.2 ⟨_, h, rfl⟩, rfl, rfl⟩
  · intro r hr
    obtain ⟨e, -, rfl⟩ := List.mem_map.1 hr
    rfl

theorem assign_bool (l : List (ℕ × ℕ)) (i j : ℕ) : assign (boolRows l) i j = true ↔ (i, j) ∈ l := by
  rw [← nz_bool (assign (boolRows l)), Graph.assign_nz]
  · unfold boolRows
    constructor
    · rintro ⟨r, hr, rfl, rfl⟩
      obtain ⟨e, he, rfl⟩ := List.mem_map.1 hr
      exact he
    · intro h
      exact ⟨_, List.mem_map.2 ⟨_, h, rfl⟩, rfl, rfl⟩
  · intro r hr
    obtain ⟨e, -, rfl⟩ := List.mem_map.1 hr
    rfl

theorem floatRows_nodup {l : List ((ℕ × ℕ) × XR)} (h : (l.map Prod.fst).Nodup) :
    ((floatRows l).map (fun r => (r.src, r.dst))).Nodup := by
  unfold floatRows
  rw [List.map_map]
  exact h

theorem coo_float {l : List ((ℕ × ℕ) × XR)} (h : (l.map Prod.fst).Nodup) (i j : ℕ) :
    (∀ w, ((i, j), w) ∈ l → coo (floatRows l) i j = real w) ∧
    ((i, j) ∉ l.map Prod.fst → coo (floatRows l) i j = 0) := by
  constructor
  · intro w hw
    induction l with
    | nil => simp at hw
    | cons a t ih =>
      rw [List.map_cons, List.nodup_cons] at h
      have hc : coo (floatRows (a :: t)) i j
          = (if i = a.1.1 ∧ j = a.1.2 then real a.2 else 0) + coo (floatRows t) i j := by
        rw [Graph.coo_real, Graph.coo_real]
        unfold floatRows
        rw [List.map_cons, List.filter_cons]
        by_cases hij : i = a.1.1 ∧ j = a.1.2
        · simp [hij]
        · simp [hij]
      rw [hc]
      rcases List.mem_cons.1 hw with rfl | hw'
      · rw [if_pos ⟨rfl, rfl⟩]
        have : coo (floatRows t) i j = 0 := by
          refine Graph.coo_none _ (fun r hr hcon => ?_)
          obtain ⟨b, hb, rfl⟩ := List.mem_map.1 hr
          refine h.1 (List.mem_map.2 ⟨b, hb, ?_⟩)
          exact Prod.ext hcon.1.symm hcon.2.symm
        rw [this, add_zero]
      · rw [if_neg, zero_add]
        · exact ih h.2 hw'
        · rintro ⟨h1, h2⟩
          refine h.1 (List.mem_map.2 ⟨_, hw', ?_⟩)
          exact Prod.ext h1 h2
  · intro hn
    refine Graph.coo_none _ (fun r hr hcon => ?_)
    obtain ⟨b, hb, rfl⟩ := List.mem_map.1 hr
    refine hn (List.mem_map.2 ⟨b, hb, ?_⟩)
    exact Prod.ext hcon.1.symm hcon.2.symm

theorem bytes_ok (n : ℕ) : n < 256 ^ (get_num_bytes n).toNat := by
  obtain ⟨k, hk, h1, -⟩ := Graph.C26 n
  rw [hk]
  have : ((2 : ℤ) ^ k).toNat = 2 ^ k := by
    rw [show ((2 : ℤ) ^ k) = ((2 ^ k : ℕ) : ℤ) by push_cast; rfl, Int.toNat_natCast]
  rw [this]
  exact h1

/-! ## C74, single layer -/

section Single

variable {ι γ κ : Type} [DecidableEq ι]

/-- **C74**: the object returned by `sample`, whatever the random numbers: number of vertices, an
identifier type that can hold it, names and groups of the reference graph (or the numbers
`0, …, n-1` and no groups), and as adjacency matrix exactly the links drawn. -/
theorem C74_single (b : Graph.Backend) (E : Ens) (n : ℕ) (hn : n < 2 ^ 64) (θ : E.δ) (s : Bool)
    (ref : Option (Ref ι γ κ)) (sl : Option Bool) (u : ℕ → ℝ) (v e : ℕ → ℕ → ℝ) :
    ∃ g, sample b E n (some θ) s ref .none sl u v e = .ok g ∧
      g.num_vertices = n ∧ n < 256 ^ g.id_bytes.toNat ∧
      Names n (ref.map Ref.id_dict) g.id_dict ∧ g.group = ref.bind Ref.group ∧
      (∃ A, g.adj = .bool A) ∧
      g.adj.Links {p | p ∈ ({ E with param := θ } : Ens).binary_sample_stream n s u} := by
  have hd : validDtype (get_num_bytes n) := (Graph.C26_valid n).2 hn
  have hnames : Names n (ref.map Ref.id_dict) (ids n ref) := by
    cases ref with
    | none => exact names_range n
    | some r => exact names_ref n r.id_dict
  unfold sample
  simp only [if_pos hd]
  cases b with
  | sparse =>
    exact ⟨_, rfl, rfl, bytes_ok n, hnames, rfl, ⟨_, rfl⟩, fun i j => coo_bool _ i j⟩
  | dense =>
    exact ⟨_, rfl, rfl, bytes_ok n, hnames, rfl, ⟨_, rfl⟩, fun i j => assign_bool _ i j⟩

/-- **C74**, law: over independent uniform numbers the adjacency matrix of the sampled object is that
of the graph `G` with the probability of `G` in the ensemble. -/
theorem C74_single_law (b : Graph.Backend) (E : Ens) (n : ℕ) (hn : n < 2 ^ 64) (θ : E.δ)
    {q : ℕ × ℕ → ℝ} (hE : ({ E with param := θ } : Ens).Is q) (s : Bool)
    (ref : Option (Ref ι γ κ)) (sl : Option Bool) (v e : ℕ → ℕ → ℝ)
    {Ω : Type} [MeasurableSpace Ω] (P : Measure Ω) (U : ℕ → Ω → ℝ) (hU : IsUniform P U)
    (G : Finset (ℕ × ℕ)) (hG : G ⊆ Law.pairs n s) :
    P {ω | ∃ g, sample b E n (some θ) s ref .none sl (fun m => U m ω) v e = .ok g ∧
        g.adj.Links (G : Set (ℕ × ℕ))} = ENNReal.ofReal (Law.prob (Law.pairs n s) q G) := by
  rw [← (C14_formula hE n s P U hU G hG).1]
  congr 1
  ext ω
  obtain ⟨g, hg, -, -, -, -, ⟨A, hA⟩, hL⟩ :=
    C74_single b E n hn θ s ref sl (fun m => U m ω) v e
  simp only [Set.mem_ofPred_eq]
  rw [hA] at hL
  constructor
  · rintro ⟨g', hg', hL'⟩
    rw [hg] at hg'
    cases hg'
    rw [hA] at hL'
    ext ⟨i, j⟩
    rw [List.mem_toFinset]
    exact (hL i j).symm.trans (hL' i j)
  · intro h
    refine ⟨g, hg, ?_⟩
    rw [hA]
    intro i j
    refine (hL i j).trans ?_
    show _ ∈ _ ↔ _
    rw [Finset.mem_coe, ← h, List.mem_toFinset]
    rfl

/-- **C74**, weights: the entry of a drawn link is its weight, all other entries are zero. -/
theorem C74_single_weights (b : Graph.Backend) (E : Ens) (n : ℕ) (hn : n < 2 ^ 64) (θ : E.δ)
    {q : ℕ × ℕ → ℝ} (hE : ({ E with param := θ } : Ens).Is q) (s : Bool)
    (ref : Option (Ref ι γ κ)) (so si : ℕ → ℝ) (sl : Option Bool) (u : ℕ → ℝ) (v e : ℕ → ℕ → ℝ)
    (hv : ∀ i j, 0 ≤ v i j) (g : Obj ι γ Adj)
    (hg : sample b E n (some θ) s ref (.cremb so si) sl u v e = .ok g) :
    g.num_vertices = n ∧ n < 256 ^ g.id_bytes.toNat ∧
    Names n (ref.map Ref.id_dict) g.id_dict ∧ g.group = ref.bind Ref.group ∧
    ∃ A, g.adj = .float A ∧ ∀ i j,
      ((i, j) ∈ Law.pairs n s → v i j < q (i, j) →
        A i j = so i * si j / ((∑ k ∈ Finset.range n, so k) * q (i, j)) * e i j) ∧
      (¬ ((i, j) ∈ Law.pairs n s ∧ v i j < q (i, j)) → A i j = 0) := by
  have hd : validDtype (get_num_bytes n) := (Graph.C26_valid n).2 hn
  have hnames : Names n (ref.map Ref.id_dict) (ids n ref) := by
    cases ref with
    | none => exact names_range n
    | some r => exact names_ref n r.id_dict
  unfold sample at hg
  simp only [if_pos hd] at hg
  cases hl : ({ E with param := θ } : Ens).cremb_sample n so si s v e with
  | error err => rw [hl] at hg; cases hg
  | ok l =>
    rw [hl] at hg
    obtain ⟨h1, h2⟩ := C16_formula hE n s so si v e hv l hl
    have hnd : (l.map Prod.fst).Nodup := by
      rw [h1, binary_sample_eq]; exact (nodup_order n s).filter _
    have hmem : ∀ i j, (i, j) ∈ l.map Prod.fst ↔ (i, j) ∈ Law.pairs n s ∧ v i j < q (i, j) := by
      intro i j
      rw [h1, mem_binary_sample hE.coherent, hE.prob_eq]
    have key : ∀ i j,
        ((i, j) ∈ Law.pairs n s → v i j < q (i, j) → coo (floatRows l) i j
          = so i * si j / ((∑ k ∈ Finset.range n, so k) * q (i, j)) * e i j) ∧
        (¬ ((i, j) ∈ Law.pairs n s ∧ v i j < q (i, j)) → coo (floatRows l) i j = 0) := by
      intro i j
      obtain ⟨c1, c2⟩ := coo_float hnd i j
      constructor
      · intro hp hlt
        obtain ⟨a, ha, hae⟩ := List.mem_map.1 ((hmem i j).2 ⟨hp, hlt⟩)
        obtain ⟨e', w⟩ := a
        cases hae
        refine (c1 w ha).trans ?_
        have hw : w = _ := (h2 _ ha).2
        rw [hw]
        rfl
      · intro hno
        exact c2 (fun h => hno ((hmem i j).1 h))
    cases b with
    | sparse =>
      cases hg
      exact ⟨rfl, bytes_ok n, hnames, rfl, _, rfl, key⟩
    | dense =>
      cases hg
      refine ⟨rfl, bytes_ok n, hnames, rfl, _, rfl, ?_⟩
      rw [Graph.assign_eq_coo _ (floatRows_nodup hnd)]
      exact key

omit [DecidableEq ι] in
/-- **C74**, errors: which exception is raised, in all cases. -/
theorem C74_single_errors (b : Graph.Backend) (E : Ens) (n : ℕ) (fitted : Option E.δ) (s : Bool)
    (ref : Option (Ref ι γ κ)) (w : Method.Weights) (sl : Option Bool) (u : ℕ → ℝ)
    (v e : ℕ → ℕ → ℝ) :
    let r := sample b E n fitted s ref w sl u v e
    (fitted = none → r = .error .notFitted) ∧
    (fitted ≠ none → 2 ^ 64 ≤ n → r = .error .dtype) ∧
    (fitted ≠ none → n < 2 ^ 64 → w = .other → r = .error .badWeights) ∧
    (∀ so si, fitted ≠ none → n < 2 ^ 64 → w = .cremb so si →
      (((∑ i ∈ Finset.range n, so i) = 0 ∨ 1e-6 * |∑ i ∈ Finset.range n, so i|
          ≤ |(∑ i ∈ Finset.range n, so i) - ∑ i ∈ Finset.range n, si i|) →
        r = .error .strengthsDiffer) ∧
      (¬ ((∑ i ∈ Finset.range n, so i) = 0 ∨ 1e-6 * |∑ i ∈ Finset.range n, so i|
          ≤ |(∑ i ∈ Finset.range n, so i) - ∑ i ∈ Finset.range n, si i|) → ∃ g, r = .ok g)) := by
  intro r
  refine ⟨?_, ?_, ?_, ?_⟩
  · rintro rfl; rfl
  · intro hf hn
    obtain ⟨θ, rfl⟩ := Option.ne_none_iff_exists'.1 hf
    have : ¬ validDtype (get_num_bytes n) := fun h => absurd ((Graph.C26_valid n).1 h) (by omega)
    simp only [r]
    unfold sample
    simp only [if_neg this]
  · rintro hf hn rfl
    obtain ⟨θ, rfl⟩ := Option.ne_none_iff_exists'.1 hf
    simp only [r]
    unfold sample
    simp only [if_pos ((Graph.C26_valid n).2 hn)]
  · rintro so si hf hn rfl
    obtain ⟨θ, rfl⟩ := Option.ne_none_iff_exists'.1 hf
    simp only [r]
    unfold sample
    simp only [if_pos ((Graph.C26_valid n).2 hn)]
    have h := C16_refused ({ E with param := θ } : Ens) n s so si v e
    constructor
    · intro hbad
      rw [h.2 hbad]
    · intro hok
      cases hl : ({ E with param := θ } : Ens).cremb_sample n so si s v e with
      | error err =>
        exfalso
        apply hok
        rw [← h, hl]
      | ok l => cases b <;> exact ⟨_, rfl⟩

end Single

/-! ## Reference graphs -/

/-- The attributes of a single-layer graph that `sample` copies. -/
def Ref.of {ι γ κ V : Type} (o : Graph.Obj ι γ V) : Ref ι γ κ :=
  ⟨o.id_dict, some ⟨o.group_dict.length, o.group_dict, o.groups⟩, none⟩

/-- **C74**: with a reference graph built from tables and as many vertices as the ensemble, the
vertices of the sampled graph are those of the table, numbered `0, …, n-1` in order, with their
groups. -/
theorem C74_ids {ι γ κ V : Type} [LinearOrder ι] [LinearOrder γ] [Graph.Dtype V]
    (tv : List (ι × γ)) (te : List (Row ι V)) (o : Graph.Obj ι γ V) (ho : Graph.Built tv te o)
    (b : Graph.Backend) (E : Ens) (n : ℕ) (hn : n < 2 ^ 64) (θ : E.δ) (s : Bool)
    (hsize : o.num_vertices = n) (sl : Option Bool) (u : ℕ → ℝ) (v e : ℕ → ℕ → ℝ) :
    ∃ g, sample b E n (some θ) s (some (Ref.of (κ := κ) o)) .none sl u v e = .ok g ∧
      Graph.Numbering (tv.map Prod.fst) g.num_vertices (fun x => g.id_dict.lookup (.inl x)) ∧
      ∃ gr, g.group = some gr ∧ gr.groups.length = g.num_vertices ∧
        ∀ x c, (x, c) ∈ tv → ∃ i k, g.id_dict.lookup (.inl x) = some i ∧
          gr.group_dict.lookup c = some k ∧ gr.groups[i]? = some k := by
  obtain ⟨g, hg, h1, -, h2, h3, -⟩ :=
    C74_single b E n hn θ s (some (Ref.of (κ := κ) o)) sl u v e
  obtain ⟨c1, -, c3, c4⟩ := Graph.C20 ho
  have hl : ∀ x, g.id_dict.lookup (.inl x) = o.id_dict.lookup x := fun x => h2.1 x
  refine ⟨g, hg, ?_, _, h3, ?_, fun x c hx => ?_⟩
  · rw [h1, ← hsize]
    simp only [hl]
    exact c1
  · rw [h1, ← hsize]; exact c3
  · simp only [hl]
    exact c4 x c hx

example : ∃ o : Graph.Obj ℕ ℕ ℝ, Graph.Built Graph.exV Graph.exE o ∧ o.num_vertices = 3 := by
  obtain ⟨o, ho⟩ := Graph.sparse_accepts Graph.exV_nodup Graph.exE_known Graph.exE_pos
  exact ⟨o, Or.inr ho, (Graph.built_ok (Or.inr ho)).2.2.2.1⟩

/-- **C74** fails for reference graphs of another size: they are accepted, and vertices get numbers
that are not below `num_vertices`. -/
theorem C74_ref_violated : ∃ (o : Graph.Obj ℕ ℕ ℝ), Graph.Built Graph.exV Graph.exE o ∧
    ∀ (b : Graph.Backend) (E : Ens) (θ : E.δ) (s : Bool) (sl : Option Bool) (u : ℕ → ℝ)
      (v e : ℕ → ℕ → ℝ),
    ∃ g, sample b E 2 (some θ) s (some (Ref.of (κ := ℕ) o)) .none sl u v e = .ok g ∧
      ∃ x i, g.id_dict.lookup (.inl x) = some i ∧ ¬ i < g.num_vertices := by
  obtain ⟨o, ho⟩ := Graph.sparse_accepts Graph.exV_nodup Graph.exE_known Graph.exE_pos
  refine ⟨o, Or.inr ho, fun b E θ s sl u v e => ?_⟩
  obtain ⟨g, hg, h1, -, h2, -⟩ :=
    C74_single b E 2 (by norm_num) θ s (some (Ref.of (κ := ℕ) o)) sl u v e
  obtain ⟨c1, -⟩ := Graph.C20 (Or.inr ho : Graph.Built Graph.exV Graph.exE o)
  have h3 : o.num_vertices = 3 := (Graph.built_ok (Or.inr ho)).2.2.2.1
  obtain ⟨x, hx⟩ := c1.onto 2 (by omega)
  refine ⟨g, hg, x, 2, (h2.1 x).trans hx, by rw [h1]; omega⟩

/-- A fitted ensemble with three vertices, accepted strengths. -/
example : (∃ (E : Ens) (θ : E.δ), ({ E with param := θ } : Ens).Is (fun _ => fitProb 1)) ∧
    (∑ i ∈ Finset.range 3, ((fun i => (i : ℝ)) : ℕ → ℝ) i) ≠ 0 := by
  constructor
  · have := Ens.Is.sparseFit 1 (fun _ => 1) (fun _ => 1) (fun _ _ => 1)
    simp only [mul_one] at this
    exact ⟨Ens.sparseFit 1 (fun _ => 1) (fun _ => 1) (fun _ _ => 1), ofENN 1, this⟩
  · simp [Finset.sum_range_succ]; norm_num

end Sampled

end

end Verif
