import Verif.Validate.Props

/-! # C46 for the random graph model and the conditional model -/

namespace Verif.Validate

open XR

noncomputable section

namespace RandomDiGraph

open FitnessModel (numberIfSet_holds numberIfSet_complete paramIfSet_some given_congr)

/-- What a graph passed first provides. -/
def graphValues : List Val → Key → Option Val
  | .graph _ n m w _ _ _ _ _ _ :: _, k =>
    match k with
    | .num_vertices => some (.num (fin n))
    | .num_edges => some (.num (fin m))
    | .total_weight => w.map (fun w => .num (fin w))
    | _ => none
  | _, _ => none

/-- What a graph and the options provide for the option `k`. -/
def value (args : List Val) (kw : List (Key × Val)) : Key → Option Val := given (graphValues args) kw

/-- The first unnamed argument, if any, is a graph. -/
def FirstGraph (args : List Val) : Prop :=
  ∀ v rest, args = v :: rest → ∃ k n m w so si g L ml bl, v = .graph k n m w so si g L ml bl

/-- Valid arguments. -/
def Valid (args : List Val) (kw : List (Key × Val)) : Prop :=
  FirstGraph args ∧
  (∀ e ∈ kw, e.1 ∈ [Key.num_vertices, .num_edges, .param, .selfloops, .total_weight,
    .discrete_weights]) ∧
  (∃ n : ℤ, 0 < n ∧ ∃ v, value args kw .num_vertices = some v ∧ IsCount v n) ∧
  (∀ v, value args kw .num_edges = some v → ∃ x, IsNumber v x ∧ Nonneg x) ∧
  (∀ v, value args kw .param = some v → ∃ x y, IsParams v x y ∧ Nonneg x ∧ Nonneg y) ∧
  (∀ v, value args kw .total_weight = some v → ∃ x, IsNumber v x ∧ Nonneg x) ∧
  ((value args kw .num_edges).isSome ∨ (value args kw .param).isSome)

/-- The attributes of the object are the values given. -/
def Holds (V : Key → Option Val) (o : Obj) : Prop :=
  (0 < o.num_vertices ∧ ∃ v, V .num_vertices = some v ∧ IsCount v o.num_vertices) ∧
  (V .num_edges = none → o.num_edges = none) ∧
  (∀ v, V .num_edges = some v →
    ∃ x w, IsNumber v x ∧ Nonneg x ∧ o.num_edges = some w ∧ IsNumber w x) ∧
  (V .param = none → o.param = none) ∧
  (∀ v, V .param = some v → ∃ x y p, IsParams v x y ∧ Nonneg x ∧ Nonneg y ∧ o.param = some p ∧
    p.shape = [2] ∧ p.f 0 = x ∧ p.f 1 = y) ∧
  (V .total_weight = none → o.total_weight = none ∧ o.discrete_weights = V .discrete_weights) ∧
  (∀ v, V .total_weight = some v → ∃ x w, IsNumber v x ∧ Nonneg x ∧ o.total_weight = some w ∧
    IsNumber w x ∧ o.discrete_weights = some ((V .discrete_weights).getD (.bool false))) ∧
  o.selfloops = (V .selfloops).getD (.bool false)

theorem discreteDefault_eq (f : Fields) : discreteDefault f =
    match f.total_weight with
    | none => f.discrete_weights
    | some _ => some (f.discrete_weights.getD (.bool false)) := by
  unfold discreteDefault
  cases f.discrete_weights <;> cases f.total_weight <;> rfl

theorem check_spec (f : Fields) (V : Key → Option Val) (hV : ∀ k, f.get k = V k)
    (hm : ∀ v, V .num_edges = some v → CleanNumber v)
    (hp : ∀ v, V .param = some v → CleanParam v)
    (hw : ∀ v, V .total_weight = some v → CleanNumber v) :
    ((∃ o, check f = .ok o) ↔
      (∃ n : ℤ, 0 < n ∧ ∃ v, V .num_vertices = some v ∧ IsCount v n) ∧
      (∀ v, V .num_edges = some v → ∃ x, IsNumber v x ∧ Nonneg x) ∧
      (∀ v, V .param = some v → ∃ x y, IsParams v x y ∧ Nonneg x ∧ Nonneg y) ∧
      (∀ v, V .total_weight = some v → ∃ x, IsNumber v x ∧ Nonneg x) ∧
      ((V .num_edges).isSome ∨ (V .param).isSome)) ∧
    ∀ o, check f = .ok o → Holds V o := by
  have v1 : f.num_vertices = V .num_vertices := hV .num_vertices
  have v2 : f.num_edges = V .num_edges := hV .num_edges
  have v3 : f.total_weight = V .total_weight := hV .total_weight
  have v4 : f.discrete_weights = V .discrete_weights := hV .discrete_weights
  have v5 : f.param = V .param := hV .param
  have v6 : f.selfloops = V .selfloops := hV .selfloops
  have sound : ∀ o, check f = .ok o → ((V .num_edges).isSome ∨ (V .param).isSome) ∧ Holds V o := by
    intro o h
    unfold check at h
    rw [v1] at h
    cases hv : V .num_vertices with
    | none => rw [hv] at h; cases h
    | some v =>
      rw [hv] at h
      simp only [bind_ok] at h
      obtain ⟨n, hn, m, h8, p, h9, h⟩ := h
      split at h
      · cases h
      rename_i hne
      simp only [bind_ok] at h
      obtain ⟨w, h10, h⟩ := h
      cases h
      rw [v2] at h8
      rw [v5] at h9
      rw [v3] at h10
      obtain ⟨h1, h2⟩ := (count_iff v n).1 hn
      obtain ⟨a1, a2⟩ := numberIfSet_holds hm h8
      obtain ⟨c1, c2⟩ := numberIfSet_holds hw h10
      have b1 : V .param = none → p = none := by
        intro e; rw [e] at h9; exact (Except.ok.inj h9).symm
      have b2 : ∀ v, V .param = some v → ∃ x y q, IsParams v x y ∧ Nonneg x ∧ Nonneg y ∧
          p = some q ∧ q.shape = [2] ∧ q.f 0 = x ∧ q.f 1 = y := by
        intro v e
        rw [e] at h9
        obtain ⟨q, h9, e'⟩ := paramIfSet_some h9
        obtain ⟨x, y, d1, d2, d3, d4, d5, d6⟩ := twoParam_sound (hp v e) h9
        exact ⟨x, y, q, d1, d2, d3, e', d4, d5, d6⟩
      refine ⟨?_, ⟨h2, v, hv, h1⟩, a1, a2, b1, b2, ?_, ?_, by rw [← v6]⟩
      · by_contra hcon
        push Not at hcon
        simp only [ne_eq, Bool.not_eq_true, Option.isSome_eq_false_iff, Option.isNone_iff_eq_none]
          at hcon
        exact hne ⟨by rw [a1 hcon.1]; rfl, by rw [b1 hcon.2]; rfl⟩
      · intro e
        refine ⟨c1 e, ?_⟩
        show discreteDefault f = _
        rw [discreteDefault_eq, v3, e, v4]
      · intro u e
        obtain ⟨x, w', d1, d2, d3, d4⟩ := c2 u e
        refine ⟨x, w', d1, d2, d3, d4, ?_⟩
        show discreteDefault f = _
        rw [discreteDefault_eq, v3, e, v4]
  refine ⟨⟨?_, ?_⟩, fun o h => (sound o h).2⟩
  · rintro ⟨o, h⟩
    obtain ⟨h0, ⟨h1, h2⟩, h3, h4, h5, h6, h7, h8, h9⟩ := sound o h
    refine ⟨⟨_, h1, h2⟩, ?_, ?_, ?_, h0⟩
    · intro v e; obtain ⟨x, _, d1, d2, _⟩ := h4 v e; exact ⟨x, d1, d2⟩
    · intro v e; obtain ⟨x, y, _, d1, d2, d3, _⟩ := h6 v e; exact ⟨x, y, d1, d2, d3⟩
    · intro v e; obtain ⟨x, _, d1, d2, _⟩ := h8 v e; exact ⟨x, d1, d2⟩
  · rintro ⟨⟨n, hn, v, h1, h2⟩, h3, h4, h5, h6⟩
    obtain ⟨m, hm1, hm2⟩ := numberIfSet_complete h3
    obtain ⟨w, hw1, _⟩ := numberIfSet_complete h5
    have hpar : ∃ p : Option Param, paramIfSet twoParam (V .param) = .ok p ∧
        p.isSome = (V .param).isSome := by
      cases hq : V .param with
      | none => exact ⟨none, rfl, rfl⟩
      | some v =>
        obtain ⟨x, y, hx, d1, d2⟩ := h4 v hq
        obtain ⟨w, hw⟩ := twoParam_complete hx d1 d2
        exact ⟨some w, (bind_ok _ _ _).2 ⟨w, hw, rfl⟩, rfl⟩
    obtain ⟨p, hp1, hp2⟩ := hpar
    refine ⟨⟨n, m, p, f.selfloops.getD (.bool false), w, discreteDefault f⟩, ?_⟩
    unfold check
    rw [v1, h1]
    simp only [bind_ok]
    refine ⟨n, (count_iff v n).2 ⟨h2, hn⟩, m, by rw [v2]; exact hm1, p, by rw [v5]; exact hp1, ?_⟩
    rw [if_neg]
    · exact (bind_ok _ _ _).2 ⟨w, by rw [v3]; exact hw1, rfl⟩
    · rintro ⟨e1, e2⟩
      rcases h6 with h6 | h6
      · rw [← hm2] at h6; cases m <;> simp_all
      · rw [← hp2] at h6; cases p <;> simp_all

theorem fromArgs_ok {args : List Val} {f : Fields} (h : fromArgs args = .ok f) :
    FirstGraph args ∧ ∀ k, f.get k = graphValues args k := by
  cases args with
  | nil => cases h; exact ⟨(by rintro v rest h; cases h), fun k => (by cases k <;> rfl)⟩
  | cons v rest =>
    cases v with
    | graph k n m w so si g L ml bl =>
      cases h
      refine ⟨?_, fun k => by cases k <;> rfl⟩
      intro v r h; cases h
      exact ⟨k, n, m, w, so, si, g, L, ml, bl, rfl⟩
    | _ => cases h

/-- **C46** (random graph model, sparse and dense). -/
theorem C46_random_partial (args : List Val) (kw : List (Key × Val))
    (hm : ∀ v, value args kw .num_edges = some v → CleanNumber v)
    (hp : ∀ v, value args kw .param = some v → CleanParam v)
    (hw : ∀ v, value args kw .total_weight = some v → CleanNumber v) :
    ((∃ o, init args kw = .ok o) ↔ Valid args kw) ∧
      ∀ o, init args kw = .ok o → Holds (value args kw) o := by
  have ha : ∀ s, Key.unknown s ∉ allowed := by simp [allowed]
  have get : ∀ (f f' : Fields), fromArgs args = .ok f → (∀ k, f'.get k = given f.get kw k) →
      ∀ k, f'.get k = value args kw k := by
    intro f f' hf hf' k
    rw [hf', value]
    exact given_congr kw k ((fromArgs_ok hf).2 k)
  have sound : ∀ o, init args kw = .ok o → Valid args kw ∧ Holds (value args kw) o := by
    intro o h
    obtain ⟨f, hf, h⟩ := (bind_ok _ _ _).1 h
    obtain ⟨f', hf', h⟩ := (bind_ok _ _ _).1 h
    rcases setOptions_spec allowed ha kw f with ⟨_, h'⟩ | ⟨hk, f'', h', hg⟩
    · rw [h'] at hf'; cases hf'
    rw [h'] at hf'; cases hf'
    obtain ⟨c1, c2⟩ := check_spec f' (value args kw) (get f f' hf hg) hm hp hw
    exact ⟨⟨(fromArgs_ok hf).1, hk, c1.1 ⟨o, h⟩⟩, c2 o h⟩
  refine ⟨⟨fun ⟨o, h⟩ => (sound o h).1, ?_⟩, fun o h => (sound o h).2⟩
  rintro ⟨hd, hk, hV⟩
  have hf : ∃ f, fromArgs args = .ok f := by
    cases args with
    | nil => exact ⟨_, rfl⟩
    | cons v rest =>
      obtain ⟨k, n, m, w, so, si, g, L, ml, bl, rfl⟩ := hd v rest rfl
      exact ⟨_, rfl⟩
  obtain ⟨f, hf⟩ := hf
  rcases setOptions_spec allowed ha kw f with ⟨⟨e, he, he'⟩, _⟩ | ⟨_, f', h', hg⟩
  · exact absurd (hk e he) he'
  obtain ⟨o, ho⟩ := (check_spec f' (value args kw) (get f f' hf hg) hm hp hw).1.2 hV
  exact ⟨o, (bind_ok _ _ _).2 ⟨f, hf, (bind_ok _ _ _).2 ⟨f', h', ho⟩⟩⟩

/-- The hypotheses of `C46_random_partial` hold and the arguments are valid: two vertices, two edges
and a total weight. -/
example : ∃ args kw, (∀ v, value args kw .num_edges = some v → CleanNumber v) ∧
    (∀ v, value args kw .param = some v → CleanParam v) ∧
    (∀ v, value args kw .total_weight = some v → CleanNumber v) ∧ Valid args kw := by
  refine ⟨[], [(.num_vertices, .num (fin 2)), (.num_edges, .list [fin 2]),
    (.total_weight, .num (fin 5))], ?_, ?_, ?_, ?_, by simp, ⟨2, by norm_num, _, rfl, .inl ?_⟩,
    ?_, ?_, ?_, .inl rfl⟩
  · intro v h
    cases (show some (Val.list [fin 2]) = some v from h)
    simp [CleanNumber]
  · intro v h; cases (show (none : Option Val) = some v from h)
  · intro v h
    cases (show some (Val.num (fin 5)) = some v from h)
    simp [CleanNumber]
  · intro v r h; cases h
  · norm_num
  · intro v h
    cases (show some (Val.list [fin 2]) = some v from h)
    exact ⟨fin 2, .inr (.inr (.inl rfl)), by simp [Nonneg]⟩
  · intro v h; cases (show (none : Option Val) = some v from h)
  · intro v h
    cases (show some (Val.num (fin 5)) = some v from h)
    exact ⟨fin 5, .inl rfl, by simp [Nonneg]⟩

end RandomDiGraph

namespace Conditional

open FitnessModel (ValidValues given_congr)

/-- What the graph or matrix passed second provides. -/
def coarse : List Val → Option Val
  | _ :: .graph _ M _ _ _ _ _ _ _ _ :: _ => some (.sparse [M, M] [])
  | _ :: v :: _ => some v
  | _ => none

/-- What the unnamed arguments and the options provide for the option `k`. -/
def value (args : List Val) (kw : List (Key × Val)) (k : Key) : Option Val :=
  given (fun k => if k = .adj then coarse args else graphValues args k) kw k

/-- The second unnamed argument, if any, is a directed graph, an array or a sparse matrix. -/
def SecondMatrix (args : List Val) : Prop :=
  ∀ u v rest, args = u :: v :: rest →
    (∃ k n m w so si g L ml bl, v = .graph k n m w so si g L ml bl ∧
      (k = .digraph ∨ k = .multidigraph)) ∨
    (∃ dt shape f, v = .arr dt shape f) ∨ ∃ shape s, v = .sparse shape s

/-- `v` is a square matrix of size `M`. -/
def IsSquare (v : Val) (M : ℕ) : Prop :=
  (∃ dt f, v = .arr dt [M, M] f ∧ dt ≠ .object) ∨ ∃ s, v = .sparse [M, M] s

/-- `v` is a non-empty array of integers, or a list that begins with one, whose largest entry is
`M - 1`; `l` are the entries. -/
def IsGroups (v : Val) (M : ℕ) (l : List XR) : Prop :=
  ((∃ k f, v = .arr .int [k] f ∧ 0 < k ∧ l = (List.range k).map f) ∨
    (v = .list l ∧ ∃ z : ℤ, l.head? = some (fin z))) ∧
  fin ((M : ℝ) - 1) ∈ l ∧ ∀ x ∈ l, leb x (fin ((M : ℝ) - 1)) = true

theorem groupCount_iff (v : Val) (M : ℕ) : groupCount v = .ok M ↔ IsSquare v M := by
  have go : ∀ shape : List ℕ, groupCount.go shape = .ok M ↔ shape = [M, M] := by
    intro shape
    match shape with
    | [] => simp [groupCount.go]
    | [_] => simp [groupCount.go]
    | [a, b] =>
      simp only [groupCount.go]
      constructor
      · intro h; split at h
        · rename_i hb; cases h; rw [hb]
        · cases h
      · intro h; cases h; simp
    | _ :: _ :: _ :: _ => simp [groupCount.go]
  cases v with
  | arr dt shape f =>
    simp only [groupCount]
    by_cases hd : dt = .object
    · subst hd
      simp [IsSquare]
    · rw [if_neg hd, go]
      constructor
      · rintro rfl; exact .inl ⟨dt, f, rfl, hd⟩
      · rintro (⟨_, _, h, _⟩ | ⟨_, h⟩) <;> cases h
        rfl
  | sparse shape s =>
    simp only [groupCount]
    rw [go]
    constructor
    · rintro rfl; exact .inr ⟨s, rfl⟩
    · rintro (⟨_, _, h, _⟩ | ⟨_, h⟩) <;> cases h
      rfl
  | _ => simp [groupCount, IsSquare]

theorem groupArray_iff (v : Val) (M : ℕ) (l : List XR) :
    groupArray M v = .ok l ↔ IsGroups v M l := by
  cases v with
  | arr dt shape f =>
    match shape with
    | [] => simp [groupArray, IsGroups]
    | [k] =>
      simp only [groupArray]
      constructor
      · intro h
        split at h
        · cases h
        rename_i h1
        push Not at h1
        obtain ⟨rfl, hk⟩ := h1
        split at h
        · rename_i h2
          cases h
          have he : entries [k] f = (List.range k).map f := by simp [entries]
          exact ⟨.inl ⟨k, f, rfl, by omega, he⟩, h2.1, h2.2⟩
        · cases h
      · rintro ⟨⟨k', f', h, hk, rfl⟩ | ⟨h, _⟩, h2⟩
        · cases h
          have he : entries [k] f = (List.range k).map f := by simp [entries]
          rw [if_neg (by simp; omega), if_pos (by rw [he]; exact h2), he]
        · cases h
    | _ :: _ :: _ => simp [groupArray, IsGroups]
  | list l' =>
    cases l' with
    | nil =>
      simp only [groupArray]
      constructor
      · intro h; cases h
      · rintro ⟨⟨_, _, h, _⟩ | ⟨h, z, h'⟩, _⟩
        · cases h
        · cases h; cases h'
    | cons x t =>
      simp only [groupArray]
      constructor
      · intro h
        split at h
        · rename_i hx
          split at h
          · rename_i h2
            cases h
            obtain ⟨z, rfl⟩ := hx
            exact ⟨.inr ⟨rfl, z, rfl⟩, h2.1, h2.2⟩
          · cases h
        · cases h
      · rintro ⟨⟨_, _, h, _⟩ | ⟨h, z, h'⟩, h2⟩
        · cases h
        · cases h
          rw [if_pos ⟨z, by simpa using h'⟩, if_pos (show maxIs (x :: t) M from h2)]
  | _ => simp [groupArray, IsGroups]

theorem fromArgs_ok {args : List Val} {f : Fields} (h : fromArgs args = .ok f) :
    FirstDirected args ∧ SecondMatrix args ∧
      ∀ k, f.get k = if k = .adj then coarse args else graphValues args k := by
  cases args with
  | nil =>
    cases h
    exact ⟨(by rintro v rest h; cases h), (by rintro u v rest h; cases h),
      fun k => (by cases k <;> rfl)⟩
  | cons v rest =>
    cases v with
    | graph k n m w so si g L ml bl =>
      simp only [fromArgs] at h
      split at h
      · rename_i hk
        have hfd : FirstDirected (.graph k n m w so si g L ml bl :: rest) := by
          intro v r h; cases h
          exact ⟨k, n, m, w, so, si, g, L, ml, bl, rfl, hk⟩
        cases rest with
        | nil =>
          cases h
          exact ⟨hfd, (by rintro u v rest h; cases h), fun k => (by cases k <;> rfl)⟩
        | cons v rest =>
          cases v with
          | graph k' n' m' w' so' si' g' L' ml' bl' =>
            simp only at h
            split at h
            · rename_i hk'
              cases h
              refine ⟨hfd, ?_, fun k => (by cases k <;> rfl)⟩
              intro u v r h; cases h
              exact .inl ⟨_, _, _, _, _, _, _, _, _, _, rfl, hk'⟩
            · cases h
          | arr dt shape a =>
            cases h
            refine ⟨hfd, ?_, fun k => (by cases k <;> rfl)⟩
            intro u v r h; cases h
            exact .inr (.inl ⟨_, _, _, rfl⟩)
          | sparse shape a =>
            cases h
            refine ⟨hfd, ?_, fun k => (by cases k <;> rfl)⟩
            intro u v r h; cases h
            exact .inr (.inr ⟨_, _, rfl⟩)
          | _ => cases h
      · cases h
    | _ => cases h

theorem fromArgs_complete {args : List Val} (h : FirstDirected args) (h2 : SecondMatrix args) :
    ∃ f, fromArgs args = .ok f := by
  cases args with
  | nil => exact ⟨_, rfl⟩
  | cons v rest =>
    obtain ⟨k, n, m, w, so, si, g, L, ml, bl, rfl, hk⟩ := h v rest rfl
    simp only [fromArgs]
    rw [if_pos hk]
    cases rest with
    | nil => exact ⟨_, rfl⟩
    | cons v rest =>
      rcases h2 _ v rest rfl with ⟨_, _, _, _, _, _, _, _, _, _, rfl, hk'⟩ | ⟨_, _, _, rfl⟩ | ⟨_, _, rfl⟩
      · simp only; rw [if_pos hk']; exact ⟨_, rfl⟩
      · exact ⟨_, rfl⟩
      · exact ⟨_, rfl⟩

/-- Valid arguments, as far as they are checked: the groups need not be as many as the vertices, nor
non-negative. -/
def Valid (args : List Val) (kw : List (Key × Val)) : Prop :=
  FirstDirected args ∧ SecondMatrix args ∧
  (∀ e ∈ kw, e.1 ∈ [Key.num_vertices, .num_edges, .prop_out, .prop_in, .groups, .adj, .param,
    .selfloops]) ∧
  ValidValues (value args kw) ∧
  ∃ M a g l, value args kw .adj = some a ∧ IsSquare a M ∧ value args kw .groups = some g ∧
    IsGroups g M l

/-- **C46** (conditional model): missing are the length and the sign of the groups, see
`C46_groups_violated`. -/
theorem C46_conditional_partial (args : List Val) (kw : List (Key × Val))
    (hm : ∀ v, value args kw .num_edges = some v → CleanNumber v)
    (hp : ∀ v, value args kw .param = some v → CleanParam v) :
    ((∃ o, init args kw = .ok o) ↔ Valid args kw) ∧
      ∀ o, init args kw = .ok o → FitnessModel.Holds (value args kw) o.base ∧
        (∃ a, value args kw .adj = some a ∧ IsSquare a o.num_groups) ∧
        ∃ g, value args kw .groups = some g ∧ IsGroups g o.num_groups o.groups := by
  have ha : ∀ s, Key.unknown s ∉ allowed := by simp [allowed]
  have get : ∀ (f f' : Fields), fromArgs args = .ok f → (∀ k, f'.get k = given f.get kw k) →
      ∀ k, f'.get k = value args kw k := by
    intro f f' hf hf' k
    rw [hf', value]
    exact given_congr kw k ((fromArgs_ok hf).2.2 k)
  refine ⟨⟨?_, ?_⟩, ?_⟩
  · rintro ⟨o, h⟩
    obtain ⟨f, hf, h⟩ := (bind_ok _ _ _).1 h
    obtain ⟨f', hf', h⟩ := (bind_ok _ _ _).1 h
    rcases setOptions_spec allowed ha kw f with ⟨_, h'⟩ | ⟨hk, f'', h', hg⟩
    · rw [h'] at hf'; cases hf'
    rw [h'] at hf'; cases hf'
    have hV := get f f' hf hg
    obtain ⟨b, hb, h⟩ := (bind_ok _ _ _).1 h
    obtain ⟨c1, c2⟩ := FitnessModel.check_spec f' (value args kw) (fun k _ => hV k) hm hp
    obtain ⟨d1, d2, _⟩ := fromArgs_ok hf
    refine ⟨d1, d2, hk, c1.1 ⟨b, hb⟩, ?_⟩
    rw [show f'.adj = _ from hV .adj, show f'.groups = _ from hV .groups] at h
    cases e1 : value args kw .adj with
    | none => rw [e1] at h; cases h
    | some a =>
      cases e2 : value args kw .groups with
      | none => rw [e1, e2] at h; cases h
      | some g =>
        rw [e1, e2] at h
        simp only [bind_ok] at h
        obtain ⟨M, hM, l, hl, h⟩ := h
        exact ⟨M, a, g, l, rfl, (groupCount_iff _ _).1 hM, rfl, (groupArray_iff _ _ _).1 hl⟩
  · rintro ⟨hd, hd2, hk, hV0, M, a, g, l, e1, h1, e2, h2⟩
    obtain ⟨f, hf⟩ := fromArgs_complete hd hd2
    rcases setOptions_spec allowed ha kw f with ⟨⟨e, he, he'⟩, _⟩ | ⟨_, f', h', hg⟩
    · exact absurd (hk e he) he'
    have hV := get f f' hf hg
    obtain ⟨b, hb⟩ := (FitnessModel.check_spec f' (value args kw) (fun k _ => hV k) hm hp).1.2 hV0
    refine ⟨⟨b, M, l⟩, (bind_ok _ _ _).2 ⟨f, hf, (bind_ok _ _ _).2 ⟨f', h',
      (bind_ok _ _ _).2 ⟨b, hb, ?_⟩⟩⟩⟩
    rw [show f'.adj = _ from hV .adj, show f'.groups = _ from hV .groups, e1, e2]
    simp only [bind_ok]
    exact ⟨M, (groupCount_iff _ _).2 h1, l, (groupArray_iff _ _ _).2 h2, rfl⟩
  · intro o h
    obtain ⟨f, hf, h⟩ := (bind_ok _ _ _).1 h
    obtain ⟨f', hf', h⟩ := (bind_ok _ _ _).1 h
    rcases setOptions_spec allowed ha kw f with ⟨_, h'⟩ | ⟨hk, f'', h', hg⟩
    · rw [h'] at hf'; cases hf'
    rw [h'] at hf'; cases hf'
    have hV := get f f' hf hg
    obtain ⟨b, hb, h⟩ := (bind_ok _ _ _).1 h
    rw [show f'.adj = _ from hV .adj, show f'.groups = _ from hV .groups] at h
    cases e1 : value args kw .adj with
    | none => rw [e1] at h; cases h
    | some a =>
      cases e2 : value args kw .groups with
      | none => rw [e1, e2] at h; cases h
      | some g =>
        rw [e1, e2] at h
        simp only [bind_ok] at h
        obtain ⟨M, hM, l, hl, h⟩ := h
        cases h
        exact ⟨(FitnessModel.check_spec f' (value args kw) (fun k _ => hV k) hm hp).2 b hb,
          ⟨a, rfl, (groupCount_iff _ _).1 hM⟩, g, rfl, (groupArray_iff _ _ _).1 hl⟩

/-- A graph of three vertices in two groups, with a coarse matrix. -/
def exArgs : List Val :=
  [.graph .digraph 3 2 none (fun _ => 1) (fun _ => 1) none 0 (fun _ => 0) ([], []),
    .arr .float [2, 2] (fun _ => fin 1)]

/-- The hypotheses of `C46_conditional_partial` hold and the arguments are valid. -/
example : ∃ kw, (∀ v, value exArgs kw .num_edges = some v → CleanNumber v) ∧
    (∀ v, value exArgs kw .param = some v → CleanParam v) ∧ Valid exArgs kw := by
  refine ⟨[(.groups, .list [fin 0, fin 1, fin 1])], ?_, ?_, ?_⟩
  · intro v h
    cases (show some (Val.num (fin (2 : ℕ))) = some v from h)
    simp [CleanNumber]
  · intro v h; cases (show (none : Option Val) = some v from h)
  · refine ⟨?_, ?_, by simp, ⟨⟨3, by norm_num, ⟨_, rfl, .inl ?_⟩,
      ⟨_, _, rfl, .float, 3, rfl, by simp, rfl, ?_⟩,
      ⟨_, _, rfl, .float, 3, rfl, by simp, rfl, ?_⟩⟩, ?_, ?_, .inl rfl⟩,
      2, _, _, _, rfl, .inl ⟨.float, _, rfl, by simp⟩, rfl, .inr ⟨rfl, 0, by simp⟩, ?_, ?_⟩
    · intro v r h; cases h
      exact ⟨_, _, _, _, _, _, _, _, _, _, rfl, .inl rfl⟩
    · intro u v r h; cases h
      exact .inr (.inl ⟨_, _, _, rfl⟩)
    · norm_num
    · intro i _; simp [Nonneg]
    · intro i _; simp [Nonneg]
    · intro v h
      cases (show some (Val.num (fin (2 : ℕ))) = some v from h)
      exact ⟨_, .inl rfl, by simp [Nonneg]⟩
    · intro v h; cases (show (none : Option Val) = some v from h)
    · norm_num
    · intro x hx
      simp only [List.mem_cons, List.not_mem_nil, or_false] at hx
      rcases hx with rfl | rfl | rfl <;> norm_num

/-- **C46** does not hold for the groups: any number of them is accepted, whatever the number of
vertices, and so are negative ones. -/
theorem C46_groups_violated :
    (∀ k : ℕ, 0 < k → ∃ o, init exArgs [(.groups, .arr .int [k] (fun _ => fin 1))] = .ok o ∧
      o.groups.length = k ∧ o.base.num_vertices = 3) ∧
    ∃ o, init exArgs [(.groups, .list [fin (-1), fin 1, fin 1])] = .ok o := by
  have clean : ∀ g, (∀ v, value exArgs [(.groups, g)] .num_edges = some v → CleanNumber v) ∧
      (∀ v, value exArgs [(.groups, g)] .param = some v → CleanParam v) := by
    intro g
    constructor
    · intro v h
      cases (show some (Val.num (fin (2 : ℕ))) = some v from h)
      simp [CleanNumber]
    · intro v h; cases (show (none : Option Val) = some v from h)
  have valid : ∀ g l, IsGroups g 2 l → Valid exArgs [(.groups, g)] := by
    intro g l hg
    refine ⟨?_, ?_, by simp, ⟨⟨3, by norm_num, ⟨_, rfl, .inl ?_⟩,
      ⟨_, _, rfl, .float, 3, rfl, by simp, rfl, ?_⟩,
      ⟨_, _, rfl, .float, 3, rfl, by simp, rfl, ?_⟩⟩, ?_, ?_, .inl rfl⟩,
      2, _, _, _, rfl, .inl ⟨.float, _, rfl, by simp⟩, rfl, hg⟩
    · intro v r h; cases h
      exact ⟨_, _, _, _, _, _, _, _, _, _, rfl, .inl rfl⟩
    · intro u v r h; cases h
      exact .inr (.inl ⟨_, _, _, rfl⟩)
    · norm_num
    · intro i _; simp [Nonneg]
    · intro i _; simp [Nonneg]
    · intro v h
      cases (show some (Val.num (fin (2 : ℕ))) = some v from h)
      exact ⟨_, .inl rfl, by simp [Nonneg]⟩
    · intro v h; cases (show (none : Option Val) = some v from h)
  constructor
  · intro k hk
    have hg : IsGroups (.arr .int [k] (fun _ => fin 1)) 2 ((List.range k).map (fun _ => fin 1)) := by
      refine ⟨.inl ⟨k, _, rfl, hk, rfl⟩, ?_, ?_⟩
      · refine List.mem_map.2 ⟨0, by simpa using hk, by norm_num⟩
      · intro x hx
        obtain ⟨_, _, rfl⟩ := List.mem_map.1 hx
        norm_num
    obtain ⟨c1, c2⟩ := clean (.arr .int [k] (fun _ => fin 1))
    obtain ⟨o, ho⟩ := (C46_conditional_partial exArgs _ c1 c2).1.2 (valid _ _ hg)
    obtain ⟨⟨⟨_, v, hv, hn⟩, _⟩, _, g, hg', hl⟩ := (C46_conditional_partial exArgs _ c1 c2).2 o ho
    refine ⟨o, ho, ?_, ?_⟩
    · cases (show some (Val.arr .int [k] (fun _ => fin 1)) = some g from hg')
      rcases hl with ⟨⟨k', f', h, _, hl⟩ | ⟨h, _⟩, _⟩
      · cases h; rw [hl]; simp
      · cases h
    · cases (show some (Val.num (fin (3 : ℕ))) = some v from hv)
      rcases hn with h | ⟨h, _⟩ | ⟨_, _, _, h, _⟩
      · simp only [Val.num.injEq, fin_inj] at h
        exact_mod_cast h.symm
      · cases h
      · cases h
  · obtain ⟨c1, c2⟩ := clean (.list [fin (-1), fin 1, fin 1])
    refine (C46_conditional_partial exArgs _ c1 c2).1.2 (valid _ [fin (-1), fin 1, fin 1]
      ⟨.inr ⟨rfl, -1, by simp⟩, ?_, ?_⟩)
    · norm_num
    · intro x hx
      simp only [List.mem_cons, List.not_mem_nil, or_false] at hx
      rcases hx with rfl | rfl | rfl <;> norm_num

end Conditional

end

end Verif.Validate
