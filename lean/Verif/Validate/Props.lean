import Verif.Validate.Lemmas

/-! # C46: which arguments a constructor accepts

For each model: with arguments outside a few excluded forms, construction succeeds exactly if the
arguments are valid, and the constructed object holds the values given, where explicit options come
before those of the graph. The excluded forms, for which the code accepts invalid arguments, have
theorems of their own. -/

namespace Verif.Validate

open XR

noncomputable section

/-- What a `DiGraph` passed first provides. -/
def graphValues : List Val → Key → Option Val
  | .graph _ n m _ so si g _ _ _ :: _, k =>
    match k with
    | .num_vertices => some (.num (fin n))
    | .num_edges => some (.num (fin m))
    | .prop_out => some (.arr .float [n] (fun i => fin (so i)))
    | .prop_in => some (.arr .float [n] (fun i => fin (si i)))
    | .groups => g.map (fun g => .arr .int [n] (fun i => fin (g i)))
    | _ => none
  | _, _ => none

/-- The first unnamed argument, if any, is a directed graph. -/
def FirstDirected (args : List Val) : Prop :=
  ∀ v rest, args = v :: rest → ∃ k n m w so si g L ml bl,
    v = .graph k n m w so si g L ml bl ∧ (k = .digraph ∨ k = .multidigraph)

namespace FitnessModel

/-- What a graph and the options provide for the option `k`. -/
def value (args : List Val) (kw : List (Key × Val)) (k : Key) : Option Val :=
  if k = .groups then given (fun _ => none) kw k else given (graphValues args) kw k

/-- The values `V` of the options are valid for a fitness model. -/
def ValidValues (V : Key → Option Val) : Prop :=
  (∃ n : ℤ, 0 < n ∧ (∃ v, V .num_vertices = some v ∧ IsCount v n) ∧
    (∃ v p, V .prop_out = some v ∧ IsVector n v p) ∧
    (∃ v p, V .prop_in = some v ∧ IsVector n v p)) ∧
  (∀ v, V .num_edges = some v → ∃ x, IsNumber v x ∧ Nonneg x) ∧
  (∀ v, V .param = some v → ∃ x, IsParam v x ∧ Nonneg x) ∧
  ((V .num_edges).isSome ∨ (V .param).isSome)

/-- Valid arguments. -/
def Valid (args : List Val) (kw : List (Key × Val)) : Prop :=
  FirstDirected args ∧
  (∀ e ∈ kw, e.1 ∈ [Key.num_vertices, .num_edges, .prop_out, .prop_in, .param, .selfloops]) ∧
  ValidValues (value args kw)

/-- The attributes of the object are the values given. -/
def Holds (V : Key → Option Val) (o : Obj) : Prop :=
  (0 < o.num_vertices ∧ ∃ v, V .num_vertices = some v ∧ IsCount v o.num_vertices) ∧
  (∃ v, V .prop_out = some v ∧ IsVector o.num_vertices v o.prop_out) ∧
  (∃ v, V .prop_in = some v ∧ IsVector o.num_vertices v o.prop_in) ∧
  (V .num_edges = none → o.num_edges = none) ∧
  (∀ v, V .num_edges = some v →
    ∃ x w, IsNumber v x ∧ Nonneg x ∧ o.num_edges = some w ∧ IsNumber w x) ∧
  (V .param = none → o.param = none) ∧
  (∀ v, V .param = some v →
    ∃ x p, IsParam v x ∧ Nonneg x ∧ o.param = some p ∧ p.shape.prod = 1 ∧ p.f 0 = x) ∧
  o.selfloops = (V .selfloops).getD (.bool false)

theorem IsVector.ne_empty {n : ℤ} {v : Val} {p : ℕ → XR} (h : IsVector n v p) : v ≠ .empty := by
  obtain ⟨_, _, rfl, _⟩ := h; simp

theorem numberIfSet_some {v : Val} {m : Option Val} (h : numberIfSet (some v) = .ok m) :
    ∃ w, number v = .ok w ∧ m = some w := by
  obtain ⟨w, h1, h2⟩ := (bind_ok _ _ _).1 h
  cases h2; exact ⟨w, h1, rfl⟩

theorem paramIfSet_some {c : Val → Except Err Param} {v : Val} {m : Option Param}
    (h : paramIfSet c (some v) = .ok m) : ∃ w, c v = .ok w ∧ m = some w := by
  obtain ⟨w, h1, h2⟩ := (bind_ok _ _ _).1 h
  cases h2; exact ⟨w, h1, rfl⟩

/-- The checks succeed exactly on valid attributes. -/
theorem check_sound (f : Fields) (o : Obj) (h : check f = .ok o) :
    (∃ v, f.num_vertices = some v ∧ IsCount v o.num_vertices) ∧ 0 < o.num_vertices ∧
    (∃ v, f.prop_out = some v ∧ IsVector o.num_vertices v o.prop_out) ∧
    (∃ v, f.prop_in = some v ∧ IsVector o.num_vertices v o.prop_in) ∧
    numberIfSet f.num_edges = .ok o.num_edges ∧ paramIfSet oneParam f.param = .ok o.param ∧
    ¬ (o.num_edges.isNone ∧ o.param.isNone) ∧ o.selfloops = f.selfloops.getD (.bool false) := by
  unfold check at h
  cases hv : f.num_vertices with
  | none => rw [hv] at h; cases h
  | some v =>
    rw [hv] at h
    simp only [bind_ok] at h
    obtain ⟨n, hn, po, hpo, pi, hpi, qo, hqo, qi, hqi, m, hm, p, hp, h⟩ := h
    split at h
    · cases h
    · rename_i hne
      cases h
      obtain ⟨h1, h2⟩ := (count_iff v n).1 hn
      exact ⟨⟨v, rfl, h1⟩, h2, ⟨po, ((required_iff _ _).1 hpo).1, (vector_iff n po qo).1 hqo⟩,
        ⟨pi, ((required_iff _ _).1 hpi).1, (vector_iff n pi qi).1 hqi⟩, hm, hp, hne, rfl⟩

theorem check_complete (f : Fields) {n : ℤ} {v vo vi : Val} {po pi : ℕ → XR} {m : Option Val}
    {p : Option Param} (hv : f.num_vertices = some v) (hc : IsCount v n) (hn : 0 < n)
    (ho : f.prop_out = some vo) (hpo : IsVector n vo po) (hi : f.prop_in = some vi)
    (hpi : IsVector n vi pi) (hm : numberIfSet f.num_edges = .ok m)
    (hp : paramIfSet oneParam f.param = .ok p) (hne : ¬ (m.isNone ∧ p.isNone)) :
    ∃ o, check f = .ok o := by
  refine ⟨⟨n, po, pi, m, p, f.selfloops.getD (.bool false)⟩, ?_⟩
  unfold check
  rw [hv]
  simp only [bind_ok]
  exact ⟨n, (count_iff v n).2 ⟨hc, hn⟩, vo, (required_iff _ _).2 ⟨ho, IsVector.ne_empty hpo⟩,
    vi, (required_iff _ _).2 ⟨hi, IsVector.ne_empty hpi⟩, po, (vector_iff _ _ _).2 hpo,
    pi, (vector_iff _ _ _).2 hpi, m, hm, p, hp, by rw [if_neg hne]⟩

theorem numberIfSet_holds {a : Option Val} {m : Option Val} (hc : ∀ v, a = some v → CleanNumber v)
    (h : numberIfSet a = .ok m) : (a = none → m = none) ∧
      (∀ v, a = some v → ∃ x w, IsNumber v x ∧ Nonneg x ∧ m = some w ∧ IsNumber w x) := by
  refine ⟨?_, ?_⟩
  · rintro rfl; cases h; rfl
  · rintro v rfl
    obtain ⟨w, h1, rfl⟩ := numberIfSet_some h
    obtain ⟨x, hx, h0, hw⟩ := number_sound (hc v rfl) h1
    exact ⟨x, w, hx, h0, rfl, hw⟩

theorem numberIfSet_complete {a : Option Val}
    (h : ∀ v, a = some v → ∃ x, IsNumber v x ∧ Nonneg x) :
    ∃ m : Option Val, numberIfSet a = .ok m ∧ m.isSome = a.isSome := by
  cases a with
  | none => exact ⟨none, rfl, rfl⟩
  | some v =>
    obtain ⟨x, hx, h0⟩ := h v rfl
    obtain ⟨w, hw⟩ := number_complete hx h0
    exact ⟨some w, (bind_ok _ _ _).2 ⟨w, hw, rfl⟩, rfl⟩

/-- The checks succeed exactly on valid values, and keep them. -/
theorem check_spec (f : Fields) (V : Key → Option Val)
    (hV : ∀ k ∈ [Key.num_vertices, .num_edges, .prop_out, .prop_in, .param, .selfloops],
      f.get k = V k)
    (hm : ∀ v, V .num_edges = some v → CleanNumber v)
    (hp : ∀ v, V .param = some v → CleanParam v) :
    ((∃ o, check f = .ok o) ↔ ValidValues V) ∧ ∀ o, check f = .ok o → Holds V o := by
  have v1 : f.num_vertices = V .num_vertices := hV .num_vertices (by simp)
  have v2 : f.num_edges = V .num_edges := hV .num_edges (by simp)
  have v3 : f.prop_out = V .prop_out := hV .prop_out (by simp)
  have v4 : f.prop_in = V .prop_in := hV .prop_in (by simp)
  have v5 : f.param = V .param := hV .param (by simp)
  have v6 : f.selfloops = V .selfloops := hV .selfloops (by simp)
  have sound : ∀ o, check f = .ok o → ValidValues V ∧ Holds V o := by
    intro o h
    obtain ⟨⟨v, h1, h2⟩, h3, ⟨vo, h4, h5⟩, ⟨vi, h6, h7⟩, h8, h9, h10, h11⟩ := check_sound f o h
    rw [v1] at h1
    rw [v3] at h4
    rw [v4] at h6
    rw [v2] at h8
    rw [v5] at h9
    rw [v6] at h11
    obtain ⟨a1, a2⟩ := numberIfSet_holds hm h8
    have b1 : V .param = none → o.param = none := by
      intro e; rw [e] at h9; exact (Except.ok.inj h9).symm
    have b2 : ∀ v, V .param = some v →
        ∃ x p, IsParam v x ∧ Nonneg x ∧ o.param = some p ∧ p.shape.prod = 1 ∧ p.f 0 = x := by
      intro v e
      rw [e] at h9
      obtain ⟨p, h9, e'⟩ := paramIfSet_some h9
      obtain ⟨x, c1, c2, c3, c4⟩ := oneParam_sound (hp v e) h9
      exact ⟨x, p, c1, c2, e', c3, c4⟩
    refine ⟨⟨⟨o.num_vertices, h3, ⟨v, h1, h2⟩, ⟨vo, _, h4, h5⟩, ⟨vi, _, h6, h7⟩⟩, ?_, ?_, ?_⟩,
      ⟨h3, v, h1, h2⟩, ⟨vo, h4, h5⟩, ⟨vi, h6, h7⟩, a1, a2, b1, b2, h11⟩
    · intro v e; obtain ⟨x, _, c1, c2, _⟩ := a2 v e; exact ⟨x, c1, c2⟩
    · intro v e; obtain ⟨x, _, c1, c2, _⟩ := b2 v e; exact ⟨x, c1, c2⟩
    · by_contra hcon
      push Not at hcon
      simp only [ne_eq, Bool.not_eq_true, Option.isSome_eq_false_iff, Option.isNone_iff_eq_none]
        at hcon
      exact h10 ⟨by rw [a1 hcon.1]; rfl, by rw [b1 hcon.2]; rfl⟩
  refine ⟨⟨fun ⟨o, h⟩ => (sound o h).1, ?_⟩, fun o h => (sound o h).2⟩
  rintro ⟨⟨n, hn, ⟨v, h1, h2⟩, ⟨vo, po, h3, h4⟩, ⟨vi, pi, h5, h6⟩⟩, h7, h8, h9⟩
  obtain ⟨m, hm1, hm2⟩ := numberIfSet_complete h7
  have hpar : ∃ p : Option Param, paramIfSet oneParam (V .param) = .ok p ∧
      p.isSome = (V .param).isSome := by
    cases hq : V .param with
    | none => exact ⟨none, rfl, rfl⟩
    | some v =>
      obtain ⟨x, hx, h0⟩ := h8 v hq
      obtain ⟨w, hw⟩ := oneParam_complete hx h0
      exact ⟨some w, (bind_ok _ _ _).2 ⟨w, hw, rfl⟩, rfl⟩
  obtain ⟨p, hp1, hp2⟩ := hpar
  exact check_complete f (n := n) (v := v) (vo := vo) (vi := vi) (po := po) (pi := pi)
    (m := m) (p := p) (v1.trans h1) h2 hn (v3.trans h3) h4 (v4.trans h5) h6
    (by rw [v2]; exact hm1) (by rw [v5]; exact hp1)
    (by
      rintro ⟨e1, e2⟩
      rcases h9 with h9 | h9
      · rw [← hm2] at h9; cases m <;> simp_all
      · rw [← hp2] at h9; cases p <;> simp_all)

theorem fromArgs_ok {args : List Val} {f : Fields} (h : fromArgs args = .ok f) :
    FirstDirected args ∧ f.groups = none ∧ ∀ k, k ≠ .groups → f.get k = graphValues args k := by
  cases args with
  | nil => cases h; exact ⟨(by rintro v rest h; cases h), rfl, fun k _ => (by cases k <;> rfl)⟩
  | cons v rest =>
    cases v with
    | graph k n m w so si g L ml bl =>
      simp only [fromArgs] at h
      split at h
      · rename_i hk
        cases h
        refine ⟨?_, rfl, fun k hk => by cases k <;> first | rfl | exact absurd rfl hk⟩
        intro v r h; cases h
        exact ⟨k, n, m, w, so, si, g, L, ml, bl, rfl, hk⟩
      · cases h
    | _ => cases h

theorem fromArgs_complete {args : List Val} (h : FirstDirected args) :
    ∃ f, fromArgs args = .ok f := by
  cases args with
  | nil => exact ⟨_, rfl⟩
  | cons v rest =>
    obtain ⟨k, n, m, w, so, si, g, L, ml, bl, rfl, hk⟩ := h v rest rfl
    exact ⟨_, by simp only [fromArgs]; rw [if_pos hk]⟩

theorem unknown_not_allowed (s : String) : Key.unknown s ∉ allowed := by simp [allowed]

theorem given_congr {g g' : Key → Option Val} (kw : List (Key × Val)) (k : Key)
    (h : g k = g' k) : given g kw k = given g' kw k := by
  unfold given; split
  · rfl
  · exact h

/-- **C46** (fitness and scale-invariant models, sparse and dense). -/
theorem C46_fitness_partial (args : List Val) (kw : List (Key × Val))
    (hm : ∀ v, value args kw .num_edges = some v → CleanNumber v)
    (hp : ∀ v, value args kw .param = some v → CleanParam v) :
    ((∃ o, init args kw = .ok o) ↔ Valid args kw) ∧
      ∀ o, init args kw = .ok o → Holds (value args kw) o := by
  have get : ∀ (f f' : Fields), fromArgs args = .ok f → (∀ k, f'.get k = given f.get kw k) →
      ∀ k ∈ [Key.num_vertices, .num_edges, .prop_out, .prop_in, .param, .selfloops],
        f'.get k = value args kw k := by
    intro f f' hf hf' k hk
    have hk : k ≠ .groups := by rintro rfl; simp at hk
    rw [hf', value, if_neg hk]
    exact given_congr kw k ((fromArgs_ok hf).2.2 k hk)
  have sound : ∀ o, init args kw = .ok o → Valid args kw ∧ Holds (value args kw) o := by
    intro o h
    obtain ⟨f, hf, h⟩ := (bind_ok _ _ _).1 h
    obtain ⟨f', hf', h⟩ := (bind_ok _ _ _).1 h
    rcases setOptions_spec allowed unknown_not_allowed kw f with ⟨_, h'⟩ | ⟨hk, f'', h', hg⟩
    · rw [h'] at hf'; cases hf'
    rw [h'] at hf'; cases hf'
    obtain ⟨c1, c2⟩ := check_spec f' (value args kw) (get f f' hf hg) hm hp
    exact ⟨⟨(fromArgs_ok hf).1, hk, c1.1 ⟨o, h⟩⟩, c2 o h⟩
  refine ⟨⟨fun ⟨o, h⟩ => (sound o h).1, ?_⟩, fun o h => (sound o h).2⟩
  rintro ⟨hd, hk, hV⟩
  obtain ⟨f, hf⟩ := fromArgs_complete hd
  rcases setOptions_spec allowed unknown_not_allowed kw f with ⟨⟨e, he, he'⟩, _⟩ | ⟨_, f', h', hg⟩
  · exact absurd (hk e he) he'
  obtain ⟨o, ho⟩ := (check_spec f' (value args kw) (get f f' hf hg) hm hp).1.2 hV
  exact ⟨o, (bind_ok _ _ _).2 ⟨f, hf, (bind_ok _ _ _).2 ⟨f', h', ho⟩⟩⟩

/-- The hypotheses of `C46_fitness_partial` hold, and so does validity, for a graph with an explicit
number of edges; the explicit one is used. -/
example : ∃ args kw, (∀ v, value args kw .num_edges = some v → CleanNumber v) ∧
    (∀ v, value args kw .param = some v → CleanParam v) ∧ Valid args kw ∧
    value args kw .num_edges = some (.num (fin 7)) := by
  refine ⟨[.graph .digraph 3 2 none (fun _ => 1) (fun _ => 1) none 0 (fun _ => 0) ([], [])],
    [(.num_edges, .num (fin 7))], ?_, ?_, ?_, rfl⟩
  · intro v h
    cases (show some (Val.num (fin 7)) = some v from h)
    simp [CleanNumber]
  · intro v h; cases (show (none : Option Val) = some v from h)
  · refine ⟨?_, by simp, ⟨3, by norm_num, ⟨_, rfl, .inl ?_⟩, ⟨_, _, rfl, .float, 3, rfl, by simp, rfl, ?_⟩,
      ⟨_, _, rfl, .float, 3, rfl, by simp, rfl, ?_⟩⟩, ?_, ?_, .inl rfl⟩
    · intro v r h; cases h
      exact ⟨_, _, _, _, _, _, _, _, _, _, rfl, .inl rfl⟩
    · norm_num
    · intro i _; simp [Nonneg]
    · intro i _; simp [Nonneg]
    · intro v h
      cases (show some (Val.num (fin 7)) = some v from h)
      exact ⟨fin 7, .inl rfl, by simp [Nonneg]⟩
    · intro v h; cases (show (none : Option Val) = some v from h)

/-- **C46** does not hold without the restriction: `nan` is accepted as number of edges, and a list
with any number of entries as parameter, whatever else is passed. -/
theorem C46_violated (n : ℕ) (hn : 0 < n) (s : ℕ → ℝ) (hs : ∀ i, 0 ≤ s i) (l : List ℝ)
    (hl : ∀ x ∈ l, 0 ≤ x) :
    (∃ o, init [] [(.num_vertices, .num (fin n)), (.prop_out, .arr .float [n] (fun i => fin (s i))),
        (.prop_in, .arr .float [n] (fun i => fin (s i))), (.num_edges, .num nan)] = .ok o ∧
      o.num_edges = some (.num nan)) ∧
    (∃ o p, init [] [(.num_vertices, .num (fin n)),
        (.prop_out, .arr .float [n] (fun i => fin (s i))),
        (.prop_in, .arr .float [n] (fun i => fin (s i))), (.param, .list (l.map fin))] = .ok o ∧
      o.param = some p ∧ p.shape = [1, l.length]) := by
  have hc : count (.num (fin (n : ℝ))) = .ok (n : ℤ) :=
    (count_iff _ _).2 ⟨.inl (by simp), by exact_mod_cast hn⟩
  have hv : vector n (.arr .float [n] (fun i => fin (s i))) = .ok (fun i => fin (s i)) :=
    (vector_iff _ _ _).2 ⟨.float, n, rfl, by simp, rfl, fun i _ => by simpa [Nonneg] using hs i⟩
  have hp : paramArray .float [1, (l.map fin).length] (fun i => (l.map fin).getD i 0) =
      .ok ⟨[1, (l.map fin).length], fun i => (l.map fin).getD i 0⟩ := by
    have key : ∀ i < [1, (l.map fin).length].prod, Nonneg ((l.map fin).getD i 0) := by
      intro i hi
      have hi' : i < l.length := by simpa using hi
      simpa [Nonneg, hi'] using hl _ (List.getElem_mem hi')
    refine (paramArray_iff ?_ _).2 ⟨rfl, rfl, key⟩
    intro hm
    obtain ⟨i, hi, e⟩ := mem_entries.1 hm
    have := key i hi
    rw [e] at this; exact this
  constructor
  · refine ⟨⟨n, fun i => fin (s i), fun i => fin (s i), some (.num nan), none, .bool false⟩, ?_, rfl⟩
    rw [init, show fromArgs [] = .ok {} from rfl, ok_bind]
    repeat rw [setOptions_cons (by simp [allowed])]
    rw [setOptions_nil, ok_bind]
    simp only [check, Fields.set, bind_ok]
    exact ⟨_, hc, _, rfl, _, rfl, _, hv, _, hv, some (.num nan), rfl, none, rfl, by simp⟩
  · refine ⟨⟨n, fun i => fin (s i), fun i => fin (s i), none,
      some ⟨[1, (l.map fin).length], fun i => (l.map fin).getD i 0⟩, .bool false⟩, _, ?_, rfl,
      by simp⟩
    rw [init, show fromArgs [] = .ok {} from rfl, ok_bind]
    repeat rw [setOptions_cons (by simp [allowed])]
    rw [setOptions_nil, ok_bind]
    simp only [check, Fields.set, bind_ok]
    exact ⟨_, hc, _, rfl, _, rfl, _, hv, _, hv, none, rfl, _, (bind_ok _ _ _).2 ⟨_, hp, rfl⟩,
      by simp⟩

end FitnessModel

end

end Verif.Validate
