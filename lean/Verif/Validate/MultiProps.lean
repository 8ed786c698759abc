import Verif.Validate.Props

/-! # C46 and C47 for the multi-layer models -/

namespace Verif.Validate.MultiFitnessModel

open XR
open FitnessModel (numberIfSet_holds numberIfSet_complete given_congr)

noncomputable section

/-- What a `MultiDiGraph` passed first provides. -/
def graphValues : List Val → Key → Option Val
  | .graph _ n m _ _ _ _ L ml bl :: _, k =>
    match k with
    | .num_vertices => some (.num (fin n))
    | .num_labels => some (.num (fin L))
    | .num_edges => some (.num (fin m))
    | .num_edges_label => some (.arr .int [L] (fun l => fin (ml l)))
    | .prop_out => some (.sparse [n, L] (bl.1.map fin))
    | .prop_in => some (.sparse [n, L] (bl.2.map fin))
    | .per_label => some (.bool true)
    | _ => none
  | _, _ => none

/-- What a graph and the options provide for the option `k`. -/
def value (args : List Val) (kw : List (Key × Val)) : Key → Option Val := given (graphValues args) kw

/-- The first unnamed argument, if any, is a directed multigraph. -/
def FirstMulti (args : List Val) : Prop :=
  ∀ v rest, args = v :: rest → ∃ n m w so si g L ml bl,
    v = .graph .multidigraph n m w so si g L ml bl

/-- `v` is an `n` by `L` array or sparse matrix of non-negative numbers; `s` are the stored ones. -/
def IsTable (n L : ℤ) (v : Val) (s : List XR) : Prop :=
  (∃ dt a b f, v = .arr dt [a, b] f ∧ dt ≠ .object ∧ (a : ℤ) = n ∧ (b : ℤ) = L ∧
    (∀ i < a * b, Nonneg (f i)) ∧ s = ((List.range (a * b)).map f).filter (fun x => !isZero x)) ∨
  ∃ a b, v = .sparse [a, b] s ∧ (a : ℤ) = n ∧ (b : ℤ) = L ∧ ∀ x ∈ s, Nonneg x

/-- `v` is an array of `L` non-negative numbers. -/
def IsCounts (L : ℤ) (v : Val) : Prop :=
  ∃ dt k f, v = .arr dt [k] f ∧ dt.isNumber = true ∧ (k : ℤ) = L ∧ ∀ i < k, Nonneg (f i)

/-- `v` is one parameter for each of `L` labels, and these are `θ`. -/
def IsParamList (L : ℤ) (v : Val) (θ : ℕ → XR) : Prop :=
  (∃ l : List XR, v = .list l ∧ (l.length : ℤ) = L ∧ θ = fun i => l.getD i 0) ∨
    ∃ dt k, v = .arr dt [k] θ ∧ dt.isNumber = true ∧ (k : ℤ) = L

/-- No `nan` in a table. -/
def CleanTable : Val → Prop
  | .arr _ shape f => nan ∉ entries shape f
  | .sparse _ s => nan ∉ s
  | _ => True

/-- Numbers of edges and parameters that the checks decide correctly: no `nan`, arrays of dimension
one, no sparse matrices. -/
def CleanArg : Val → Prop
  | .num x => x ≠ nan
  | .list l => nan ∉ l
  | .arr _ shape f => shape.length = 1 ∧ nan ∉ entries shape f
  | .sparse _ _ => False
  | _ => True

theorem table_iff {v : Val} (hc : CleanTable v) (n L : ℤ) (s : List XR) :
    table n L v = .ok s ↔ IsTable n L v s := by
  cases v with
  | arr dt shape f =>
    have hk : (entries shape f).any (fun x => ltb x 0) = false ↔
        ∀ i < shape.prod, Nonneg (f i) := by
      rw [List.any_eq_false]
      constructor
      · intro h i hi
        have hm : f i ∈ entries shape f := mem_entries.2 ⟨i, hi, rfl⟩
        exact (not_neg_iff (fun e => hc (e ▸ hm))).1 (by simpa using h _ hm)
      · intro h x hx
        obtain ⟨i, hi, rfl⟩ := mem_entries.1 hx
        simpa using (not_neg_iff (fun e => hc (e ▸ hx))).2 (h i hi)
    simp only [table]
    constructor
    · intro h
      split at h
      · rename_i hs
        split at h
        · cases h
        rename_i hd
        split at h
        · cases h
        rename_i ha
        cases h
        match shape, hs with
        | [a, b], hs =>
          simp only [List.map_cons, List.map_nil, List.cons.injEq, and_true] at hs
          have := hk.1 (by simpa using ha)
          refine .inl ⟨dt, a, b, f, rfl, hd, hs.1, hs.2, by simpa using this, by simp [entries]⟩
      · cases h
    · rintro (⟨_, a, b, _, h, hd, ha, hb, hn, rfl⟩ | ⟨_, _, h, _⟩)
      · cases h
        rw [if_pos (by simp [← ha, ← hb]), if_neg hd, if_neg (by
          rw [Bool.not_eq_true]; exact hk.2 (by simpa using hn))]
        simp [entries]
      · cases h
  | sparse shape t =>
    have hk : t.any (fun x => ltb x 0) = false ↔ ∀ x ∈ t, Nonneg x := by
      rw [List.any_eq_false]
      constructor
      · intro h x hx
        exact (not_neg_iff (fun e => hc (e ▸ hx))).1 (by simpa using h _ hx)
      · intro h x hx
        simpa using (not_neg_iff (fun e => hc (e ▸ hx))).2 (h x hx)
    simp only [table]
    constructor
    · intro h
      split at h
      · rename_i hs
        split at h
        · cases h
        rename_i ha
        cases h
        match shape, hs with
        | [a, b], hs =>
          simp only [List.map_cons, List.map_nil, List.cons.injEq, and_true] at hs
          exact .inr ⟨a, b, rfl, hs.1, hs.2, hk.1 (by simpa using ha)⟩
      · cases h
    · rintro (⟨_, _, _, _, h, _⟩ | ⟨a, b, h, ha, hb, hn⟩)
      · cases h
      · cases h
        rw [if_pos (by simp [← ha, ← hb]), if_neg (by
          rw [Bool.not_eq_true]; exact hk.2 hn)]
  | _ => simp [table, IsTable]

theorem labelCounts_iff {v : Val} (hc : CleanArg v) (L : ℤ) :
    labelCounts L v = .ok () ↔ IsCounts L v := by
  cases v with
  | arr dt shape f =>
    obtain ⟨hl, hn⟩ := hc
    match shape, hl, hn with
    | [k], _, hn =>
      have hk : (entries [k] f).any (fun x => ltb x 0) = false ↔ ∀ i < k, Nonneg (f i) := by
        rw [List.any_eq_false]
        constructor
        · intro h i hi
          have hm : f i ∈ entries [k] f := mem_entries.2 ⟨i, by simpa using hi, rfl⟩
          exact (not_neg_iff (fun e => hn (e ▸ hm))).1 (by simpa using h _ hm)
        · intro h x hx
          obtain ⟨i, hi, rfl⟩ := mem_entries.1 hx
          simpa using (not_neg_iff (fun e => hn (e ▸ hx))).2 (h i (by simpa using hi))
      simp only [labelCounts]
      constructor
      · intro h
        split at h
        · cases h
        rename_i h1
        split at h
        · cases h
        rename_i h2
        split at h
        · cases h
        rename_i h3
        exact ⟨dt, k, f, rfl, by simpa using h2, by simpa using h1, hk.1 (by simpa using h3)⟩
      · rintro ⟨_, _, _, h, hd, hL, h0⟩
        cases h
        rw [if_neg (by simpa using hL), if_neg (by simpa using hd), if_neg (by
          rw [Bool.not_eq_true]; exact hk.2 h0)]
  | list l =>
    simp only [labelCounts]
    constructor
    · intro h; split at h <;> cases h
    · rintro ⟨_, _, _, h, _⟩; cases h
  | _ => simp [labelCounts, IsCounts]

/-- Accepted parameters are one number (then shared) or one for each label. -/
theorem params_sound {v : Val} (hc : CleanArg v) {L : ℤ} (hL : 0 < L) {b : Bool} {p : Param}
    (h : params L v = .ok (b, p)) :
    p.shape = [L.toNat] ∧ (∀ i < L.toNat, Nonneg (p.f i)) ∧
      ((b = false ∧ ∃ x, IsParam v x ∧ ∀ i < L.toNat, p.f i = x) ∨
       (b = true ∧ 1 < L ∧ IsParamList L v p.f)) := by
  have go : ∀ (dt : Dt) (k : ℕ) (f : ℕ → XR), nan ∉ entries [k] f →
      params.go L dt [k] f = .ok (b, p) → dt.isNumber = true ∧ p.shape = [L.toNat] ∧
        (∀ i < L.toNat, Nonneg (p.f i)) ∧
        ((b = false ∧ k = 1 ∧ p.f = fun _ => f 0) ∨ (b = true ∧ 1 < L ∧ (k : ℤ) = L ∧ p.f = f)) := by
    intro dt k f hn h
    simp only [params.go] at h
    split at h
    · rename_i hk
      subst hk
      obtain ⟨q, h1, h2⟩ := (bind_ok _ _ _).1 h
      cases h2
      have hn' : nan ∉ entries [L.toNat] (fun i => f (i % 1)) := by
        intro hm
        obtain ⟨i, _, e⟩ := mem_entries.1 hm
        exact hn (mem_entries.2 ⟨0, by simp, by simpa [Nat.mod_one] using e⟩)
      obtain ⟨rfl, hd, h0⟩ := (paramArray_iff hn' _).1 h1
      exact ⟨hd, rfl, fun i hi => h0 i (by simpa using hi), .inl ⟨rfl, rfl, by
        funext i; simp [Nat.mod_one]⟩⟩
    · rename_i hk
      split at h
      · cases h
      · rename_i hk'
        obtain ⟨q, h1, h2⟩ := (bind_ok _ _ _).1 h
        cases h2
        obtain ⟨rfl, hd, h0⟩ := (paramArray_iff hn _).1 h1
        have hk' : (k : ℤ) = L := by simpa using hk'
        have : L.toNat = k := by omega
        refine ⟨hd, by rw [this], fun i hi => h0 i (by simpa [this] using hi),
          .inr ⟨rfl, by omega, hk', rfl⟩⟩
  cases v with
  | num x =>
    change x ≠ nan at hc
    obtain ⟨_, h1, h2, h3⟩ := go .float 1 (fun _ => x) (by simpa [entries, eq_comm] using hc) h
    refine ⟨h1, h2, ?_⟩
    rcases h3 with ⟨hb, _, hf⟩ | ⟨_, h, h', _⟩
    · exact .inl ⟨hb, x, .inl rfl, fun i _ => by rw [hf]⟩
    · exact absurd h' (by simp; omega)
  | list l =>
    have hn : nan ∉ entries [l.length] (fun i => l.getD i 0) := by
      intro hm
      obtain ⟨i, hi, e⟩ := mem_entries.1 hm
      have hi' : i < l.length := by simpa using hi
      refine hc ?_
      rw [← e, List.getD_eq_getElem _ _ hi']
      exact List.getElem_mem hi'
    obtain ⟨_, h1, h2, h3⟩ := go .float l.length (fun i => l.getD i 0) hn h
    refine ⟨h1, h2, ?_⟩
    rcases h3 with ⟨hb, hk, hf⟩ | ⟨hb, hL', hk, hf⟩
    · obtain ⟨x, rfl⟩ := List.length_eq_one_iff.1 hk
      exact .inl ⟨hb, x, .inr (.inl rfl), fun i _ => by rw [hf]; rfl⟩
    · exact .inr ⟨hb, hL', .inl ⟨l, rfl, hk, hf⟩⟩
  | arr dt shape f =>
    obtain ⟨hl, hn⟩ := hc
    match shape, hl, hn, h with
    | [k], _, hn, h =>
      obtain ⟨hd, h1, h2, h3⟩ := go dt k f hn h
      refine ⟨h1, h2, ?_⟩
      rcases h3 with ⟨hb, hk, hf⟩ | ⟨hb, hL', hk, hf⟩
      · subst hk
        exact .inl ⟨hb, f 0, .inr (.inr ⟨dt, [1], f, rfl, hd, by simp, by simp, rfl⟩),
          fun i _ => by rw [hf]⟩
      · exact .inr ⟨hb, hL', .inr ⟨dt, k, by rw [hf], hd, hk⟩⟩
  | bool b' => exact absurd (go .bool 1 (fun _ => 0) (by simp [entries, zero_def]) h).1 (by simp [Dt.isNumber])
  | sparse => exact absurd hc (by simp [CleanArg])
  | graph =>
    exact absurd (go .object 1 (fun _ => 0) (by simp [entries, zero_def]) h).1 (by simp [Dt.isNumber])
  | empty =>
    exact absurd (go .object 1 (fun _ => 0) (by simp [entries, zero_def]) h).1 (by simp [Dt.isNumber])
  | other =>
    exact absurd (go .object 1 (fun _ => 0) (by simp [entries, zero_def]) h).1 (by simp [Dt.isNumber])

theorem params_complete {v : Val} {L : ℤ} :
    (∀ x, CleanArg v → IsParam v x → Nonneg x → ∃ p, params L v = .ok (false, p)) ∧
    (∀ θ, 1 < L → IsParamList L v θ → (∀ i < L.toNat, Nonneg (θ i)) →
      ∃ p, params L v = .ok (true, p)) := by
  have one : ∀ (dt : Dt) (f : ℕ → XR), dt.isNumber = true → Nonneg (f 0) →
      ∃ p, params.go L dt [1] f = .ok (false, p) := by
    intro dt f hd h0
    refine ⟨_, (bind_ok _ _ _).2 ⟨_, (paramArray_iff ?_ _).2 ⟨rfl, hd, ?_⟩, rfl⟩⟩
    · intro hm
      obtain ⟨i, _, e⟩ := mem_entries.1 hm
      have e : f 0 = nan := by simpa [Nat.mod_one] using e
      rw [e] at h0; exact h0
    · intro i _
      simpa [Nat.mod_one] using h0
  have many : ∀ (dt : Dt) (k : ℕ) (f : ℕ → XR), dt.isNumber = true → 1 < L → (k : ℤ) = L →
      (∀ i < L.toNat, Nonneg (f i)) → ∃ p, params.go L dt [k] f = .ok (true, p) := by
    intro dt k f hd h1 hk h0
    refine ⟨⟨[k], f⟩, ?_⟩
    simp only [params.go]
    rw [if_neg (by omega), if_neg (by simpa using hk)]
    have h0' : ∀ i < [k].prod, Nonneg (f i) := fun i hi => h0 i (by simp at hi; omega)
    refine (bind_ok _ _ _).2 ⟨_, (paramArray_iff ?_ _).2 ⟨rfl, hd, h0'⟩, rfl⟩
    intro hm
    obtain ⟨i, hi, e⟩ := mem_entries.1 hm
    have := h0' i hi
    rw [e] at this; exact this
  constructor
  · rintro x hc (rfl | rfl | ⟨dt, shape, f, rfl, hd, hs, hp, rfl⟩) h0
    · exact one .float (fun _ => x) rfl h0
    · exact one .float (fun i => [x].getD i 0) rfl h0
    · match shape, hc with
      | [k], hc =>
        have : k = 1 := by simpa using hp
        subst this
        exact one dt f hd h0
  · rintro θ h1 (⟨l, rfl, hl, rfl⟩ | ⟨dt, k, rfl, hd, hk⟩) h0
    · exact many .float l.length _ rfl h1 hl h0
    · exact many dt k θ hd h1 hk h0

/-- A number of edges that is a single number, not an array over the labels. -/
def IsTotal (L : ℤ) (v : Val) : Prop :=
  (∀ dt k f, v = .arr dt [k] f → (k : ℤ) ≠ L) ∧ ∃ x, IsNumber v x ∧ Nonneg x

/-- The values `V` of the options are valid for a multi-layer model. -/
def ValidValues (V : Key → Option Val) : Prop :=
  ∃ n L : ℤ, 0 < n ∧ 0 < L ∧ (∃ v, V .num_vertices = some v ∧ IsCount v n) ∧
    (∃ v, V .num_labels = some v ∧ IsCount v L) ∧
    (∃ v s, V .prop_out = some v ∧ IsTable n L v s) ∧
    (∃ v s, V .prop_in = some v ∧ IsTable n L v s) ∧
    (∀ v, V .num_edges_label = some v → IsCounts L v) ∧
    (∀ v, V .num_edges = some v → (V .num_edges_label = none ∧ IsCounts L v) ∨ IsTotal L v) ∧
    (∀ v, V .param = some v → (∃ x, IsParam v x ∧ Nonneg x) ∨
      (1 < L ∧ ∃ θ, IsParamList L v θ ∧ ∀ i < L.toNat, Nonneg (θ i))) ∧
    ((V .num_edges).isSome ∨ (V .num_edges_label).isSome ∨ (V .param).isSome)

/-- Valid arguments. -/
def Valid (args : List Val) (kw : List (Key × Val)) : Prop :=
  FirstMulti args ∧
  (∀ e ∈ kw, e.1 ∈ [Key.num_vertices, .num_edges, .num_edges_label, .num_labels, .prop_out,
    .prop_in, .param, .selfloops, .per_label]) ∧
  ValidValues (value args kw)

/-- The attributes of the object are the values given; `num_edges` is in `C46_multi_edges`. -/
def Holds (V : Key → Option Val) (o : Obj) : Prop :=
  (0 < o.num_vertices ∧ ∃ v, V .num_vertices = some v ∧ IsCount v o.num_vertices) ∧
  (0 < o.num_labels ∧ ∃ v, V .num_labels = some v ∧ IsCount v o.num_labels) ∧
  (∃ v, V .prop_out = some v ∧ IsTable o.num_vertices o.num_labels v o.prop_out) ∧
  (∃ v, V .prop_in = some v ∧ IsTable o.num_vertices o.num_labels v o.prop_in) ∧
  (∀ v, V .num_edges_label = some v → o.num_edges_label = some v ∧ IsCounts o.num_labels v) ∧
  (V .num_edges_label = none → ∀ v, V .num_edges = some v →
    (IsCounts o.num_labels v ∧ o.num_edges_label = some v) ∨
    (IsTotal o.num_labels v ∧ o.num_edges_label = none ∧
      ∃ x w, IsNumber v x ∧ o.num_edges = some w ∧ IsNumber w x)) ∧
  (V .num_edges_label = none → V .num_edges = none →
    o.num_edges_label = none ∧ o.num_edges = none) ∧
  (V .param = none → o.param = none) ∧
  (∀ v, V .param = some v → ∃ p, o.param = some p ∧ p.shape = [o.num_labels.toNat] ∧
    (∀ i < o.num_labels.toNat, Nonneg (p.f i)) ∧
    ((∃ x, IsParam v x ∧ ∀ i < o.num_labels.toNat, p.f i = x) ∨ IsParamList o.num_labels v p.f)) ∧
  o.selfloops = (V .selfloops).getD (.bool false)

/-- `edgeArray` and `edges` together. -/
def edgeChecks (L : ℤ) (m ml : Option Val) : Except Err (Option Val × Option Val × Option Bool) :=
  edgeArray L m ml >>= fun a => edges L a.1 a.2 >>= fun e => .ok (e.1, a.2, e.2)

theorem edgeArray_other {L : ℤ} {v : Val} {ml : Option Val} (h : ∀ dt s f, v ≠ .arr dt s f) :
    edgeArray L (some v) ml = .ok (some v, ml) := by
  cases v with
  | arr dt s f => exact absurd rfl (h dt s f)
  | _ => rfl

theorem edgeChecks_label {L : ℤ} {m : Option Val} {l : Val} (hl : CleanArg l)
    (hm : ∀ v, m = some v → ∃ x, v = .num x) (r) :
    edgeChecks L m (some l) = .ok r ↔ r = (m, some l, some true) ∧ IsCounts L l := by
  have h1 : edgeArray L m (some l) = .ok (m, some l) := by
    cases m with
    | none => rfl
    | some v => obtain ⟨x, rfl⟩ := hm v rfl; rfl
  unfold edgeChecks
  rw [h1, ok_bind, ← labelCounts_iff hl]
  simp only [edges]
  cases labelCounts L l with
  | error e =>
    constructor
    · intro h; cases h
    · rintro ⟨_, h⟩; cases h
  | ok u =>
    constructor
    · intro h; cases h; exact ⟨rfl, rfl⟩
    · rintro ⟨rfl, _⟩; rfl

theorem edgeChecks_total {L : ℤ} {v : Val} (hv : CleanArg v) (r) :
    edgeChecks L (some v) none = .ok r →
      (r = (some v, some v, some true) ∧ IsCounts L v) ∨
      (r.2 = (none, some false) ∧ IsTotal L v ∧
        ∃ x w, IsNumber v x ∧ r.1 = some w ∧ IsNumber w x) := by
  intro h
  unfold edgeChecks at h
  obtain ⟨a, h1, h⟩ := (bind_ok _ _ _).1 h
  obtain ⟨e, h2, h⟩ := (bind_ok _ _ _).1 h
  cases h
  by_cases harr : ∃ dt s f, v = .arr dt s f
  · obtain ⟨dt, s, f, rfl⟩ := harr
    match s, hv with
    | [k], hv =>
      simp only [edgeArray] at h1
      split at h1
      · cases h1
        simp only [edges] at h2
        obtain ⟨u, h3, h4⟩ := (bind_ok _ _ _).1 h2
        cases h4
        exact .inl ⟨rfl, (labelCounts_iff hv L).1 h3⟩
      · rename_i hk
        split at h1
        · rename_i hk1
          subst hk1
          cases h1
          simp only [edges] at h2
          obtain ⟨w, h3, h4⟩ := (bind_ok _ _ _).1 h2
          cases h4
          simp only [if_true] at h3
          by_cases hd : dt = .object
          · rw [if_pos hd] at h3; cases h3
          · rw [if_neg hd] at h3
            have hx : f 0 ≠ nan := fun e => hv.2 (mem_entries.2 ⟨0, by simp, e⟩)
            obtain ⟨x, c1, c2, c3⟩ := number_sound (v := .num (f 0)) hx h3
            have hx' : x = f 0 := by
              rcases c1 with c | ⟨_, c, _⟩ | c | ⟨_, _, _, c, _⟩ <;> cases c
              rfl
            subst hx'
            have hnum : IsNumber (.arr dt [1] f) (f 0) :=
              .inr (.inr (.inr ⟨dt, [1], f, rfl, hd, by simp, rfl⟩))
            refine .inr ⟨rfl, ⟨?_, f 0, hnum, c2⟩, f 0, w, hnum, rfl, c3⟩
            rintro _ _ _ h; cases h; exact hk
        · cases h1
  · have harr : ∀ dt s f, v ≠ .arr dt s f := fun dt s f e => harr ⟨dt, s, f, e⟩
    rw [edgeArray_other harr] at h1
    cases h1
    simp only [edges] at h2
    obtain ⟨w, h3, h4⟩ := (bind_ok _ _ _).1 h2
    cases h4
    have hcl : CleanNumber v := by
      cases v with
      | arr dt s f => exact absurd rfl (harr dt s f)
      | sparse => exact hv
      | _ => exact hv
    obtain ⟨x, c1, c2, c3⟩ := number_sound hcl h3
    exact .inr ⟨rfl, ⟨fun dt k f e => absurd e (harr _ _ _), x, c1, c2⟩, x, w, c1, rfl, c3⟩

theorem edgeChecks_complete {L : ℤ} {v : Val} (hv : CleanArg v)
    (h : IsCounts L v ∨ IsTotal L v) : ∃ r, edgeChecks L (some v) none = .ok r := by
  rcases h with h | ⟨hL, x, hx, h0⟩
  · have hl := (labelCounts_iff hv L).2 h
    obtain ⟨dt, k, f, rfl, hd, hk, hn⟩ := h
    refine ⟨(some (.arr dt [k] f), some (.arr dt [k] f), some true), ?_⟩
    unfold edgeChecks
    rw [show edgeArray L (some (.arr dt [k] f)) none =
      .ok (some (.arr dt [k] f), some (.arr dt [k] f)) by simp [edgeArray, hk], ok_bind]
    simp only [edges]
    rw [hl]; rfl
  · by_cases harr : ∃ dt s f, v = .arr dt s f
    · obtain ⟨dt, s, f, rfl⟩ := harr
      match s, hv with
      | [k], hv =>
        rcases hx with h | ⟨_, h, _⟩ | h | ⟨_, _, _, h, hd, hp, rfl⟩ <;> cases h
        have hk : k = 1 := by simpa using hp
        subst hk
        obtain ⟨w, hw⟩ := number_complete (v := .num (f 0)) (.inl rfl) h0
        have hne := hL dt 1 f rfl
        refine ⟨(some w, none, some false), ?_⟩
        unfold edgeChecks
        rw [show edgeArray L (some (.arr dt [1] f)) none = .ok (some (.num (f 0)), none) by
          simp only [edgeArray]; rw [if_neg hne]; simp [hd], ok_bind]
        simp only [edges]
        rw [hw]; rfl
    · have harr : ∀ dt s f, v ≠ .arr dt s f := fun dt s f e => harr ⟨dt, s, f, e⟩
      obtain ⟨w, hw⟩ := number_complete hx h0
      refine ⟨(some w, none, some false), ?_⟩
      unfold edgeChecks
      rw [edgeArray_other harr, ok_bind]
      simp only [edges]
      rw [hw]; rfl

/-- The last assignment to `per_label` before the options. -/
def chosen (f : Fields) (e : Option Bool) (p : Option (Bool × Param)) : Option Val :=
  match p with
  | some q => some (.bool q.1)
  | none => match e with
    | some b => some (.bool b)
    | none => f.per_label

/-- The last assignment to `per_label`. -/
def lastPerLabel (kw : List (Key × Val)) (f : Fields) (e : Option Bool)
    (p : Option (Bool × Param)) : Option Val :=
  if kw.any (fun k => k.1 = .per_label) then f.per_label else chosen f e p

/-- The checks, one after the other. -/
theorem check_iff (kw : List (Key × Val)) (f : Fields) (o : Obj) :
    check kw f = .ok o ↔ ∃ v n l L po pi so si m ml e p,
      f.num_vertices = some v ∧ count v = .ok n ∧ f.num_labels = some l ∧ count l = .ok L ∧
      required f.prop_out = .ok po ∧ required f.prop_in = .ok pi ∧ table n L po = .ok so ∧
      table n L pi = .ok si ∧ edgeChecks L f.num_edges f.num_edges_label = .ok (m, ml, e) ∧
      paramsIfSet L f.param = .ok p ∧ ¬ (m.isNone ∧ ml.isNone ∧ p.isNone) ∧
      o = ⟨n, L, so, si, m, ml, p.map Prod.snd, f.selfloops.getD (.bool false),
        lastPerLabel kw f e p⟩ := by
  constructor
  · intro h
    unfold check at h
    cases hv : f.num_vertices with
    | none => rw [hv] at h; cases h
    | some v =>
      rw [hv] at h
      simp only [bind_ok] at h
      obtain ⟨n, hn, h⟩ := h
      cases hl : f.num_labels with
      | none => rw [hl] at h; cases h
      | some l =>
        rw [hl] at h
        simp only [bind_ok] at h
        obtain ⟨L, hL, po, hpo, pi, hpi, so, hso, si, hsi, a, ha, e, he, p, hp, h⟩ := h
        split at h
        · cases h
        rename_i hne
        have h := (Except.ok.inj h).symm
        refine ⟨v, n, l, L, po, pi, so, si, e.1, a.2, e.2, p, rfl, hn, rfl, hL, hpo, hpi, hso, hsi,
          (bind_ok _ _ _).2 ⟨a, ha, (bind_ok _ _ _).2 ⟨e, he, rfl⟩⟩, hp, hne, ?_⟩
        rw [h]
        rfl
  · rintro ⟨v, n, l, L, po, pi, so, si, m, ml, e, p, hv, hn, hl, hL, hpo, hpi, hso, hsi, hE, hp,
      hne, rfl⟩
    obtain ⟨a, ha, hE⟩ := (bind_ok _ _ _).1 hE
    obtain ⟨e', he, hE⟩ := (bind_ok _ _ _).1 hE
    cases hE
    unfold check
    rw [hv]
    simp only [bind_ok]
    refine ⟨n, hn, ?_⟩
    rw [hl]
    simp only [bind_ok]
    refine ⟨L, hL, po, hpo, pi, hpi, so, hso, si, hsi, a, ha, e', he, p, hp, ?_⟩
    rw [if_neg hne]
    rfl

/-- Excluded arguments: `nan`, sparse matrices and arrays of more dimensions, and numbers of edges
both in total and per label unless the former is a non-negative number. -/
def Clean (V : Key → Option Val) : Prop :=
  (∀ k ∈ [Key.prop_out, .prop_in], ∀ v, V k = some v → CleanTable v) ∧
  (∀ k ∈ [Key.num_edges, .num_edges_label, .param], ∀ v, V k = some v → CleanArg v) ∧
  ((V .num_edges_label).isSome → ∀ v, V .num_edges = some v → ∃ x, v = .num x ∧ Nonneg x)

theorem IsTable.ne_empty {n L : ℤ} {v : Val} {s : List XR} (h : IsTable n L v s) : v ≠ .empty := by
  rcases h with ⟨_, _, _, _, rfl, _⟩ | ⟨_, _, rfl, _⟩ <;> simp

theorem check_spec (kw : List (Key × Val)) (f : Fields) (V : Key → Option Val)
    (hV : ∀ k, f.get k = V k) (hc : Clean V) :
    ((∃ o, check kw f = .ok o) ↔ ValidValues V) ∧ ∀ o, check kw f = .ok o → Holds V o := by
  have v1 : f.num_vertices = V .num_vertices := hV .num_vertices
  have v2 : f.num_edges = V .num_edges := hV .num_edges
  have v3 : f.prop_out = V .prop_out := hV .prop_out
  have v4 : f.prop_in = V .prop_in := hV .prop_in
  have v5 : f.param = V .param := hV .param
  have v6 : f.selfloops = V .selfloops := hV .selfloops
  have v7 : f.num_labels = V .num_labels := hV .num_labels
  have v8 : f.num_edges_label = V .num_edges_label := hV .num_edges_label
  obtain ⟨hT, hA, hB⟩ := hc
  have sound : ∀ o, check kw f = .ok o → ValidValues V ∧ Holds V o := by
    intro o h
    obtain ⟨v, n, l, L, po, pi, so, si, m, ml, e, p, h1, h2, h3, h4, h5, h6, h7, h8, h9, h10, h11,
      rfl⟩ := (check_iff kw f o).1 h
    rw [v1] at h1
    rw [v7] at h3
    rw [v3] at h5
    rw [v4] at h6
    rw [v2, v8] at h9
    rw [v5] at h10
    obtain ⟨c1, c2⟩ := (count_iff v n).1 h2
    obtain ⟨c3, c4⟩ := (count_iff l L).1 h4
    obtain ⟨c5, -⟩ := (required_iff _ _).1 h5
    obtain ⟨c6, -⟩ := (required_iff _ _).1 h6
    have c7 := (table_iff (hT .prop_out (by simp) po c5) n L so).1 h7
    have c8 := (table_iff (hT .prop_in (by simp) pi c6) n L si).1 h8
    have par : ∀ u, V .param = some u → ∃ b q, p = some (b, q) ∧ q.shape = [L.toNat] ∧
        (∀ i < L.toNat, Nonneg (q.f i)) ∧
        ((b = false ∧ ∃ x, IsParam u x ∧ ∀ i < L.toNat, q.f i = x) ∨
          (b = true ∧ 1 < L ∧ IsParamList L u q.f)) := by
      intro u e'
      rw [e'] at h10
      obtain ⟨⟨b, q⟩, d1, d2⟩ := (bind_ok _ _ _).1 h10
      cases d2
      exact ⟨b, q, rfl, params_sound (hA .param (by simp) u e') c4 d1⟩
    have parn : V .param = none → p = none := by
      intro e'; rw [e'] at h10; exact (Except.ok.inj h10).symm
    have lab : ∀ u, V .num_edges_label = some u →
        (m, ml, e) = (V .num_edges, some u, some true) ∧ IsCounts L u := by
      intro u e'
      rw [e'] at h9
      refine (edgeChecks_label (hA .num_edges_label (by simp) u e') ?_ _).1 h9
      intro v' e''
      obtain ⟨x, hx, _⟩ := hB (by rw [e']; rfl) v' e''
      exact ⟨x, hx⟩
    have tot : V .num_edges_label = none → ∀ u, V .num_edges = some u →
        ((m, ml, e) = (some u, some u, some true) ∧ IsCounts L u) ∨
        ((ml, e) = (none, some false) ∧ IsTotal L u ∧
          ∃ x w, IsNumber u x ∧ m = some w ∧ IsNumber w x) := by
      intro e1 u e2
      rw [e1, e2] at h9
      exact edgeChecks_total (hA .num_edges (by simp) u e2) _ h9
    have non : V .num_edges_label = none → V .num_edges = none → (m, ml, e) = (none, none, none) := by
      intro e1 e2
      rw [e1, e2] at h9
      exact (Except.ok.inj h9).symm
    refine ⟨⟨n, L, c2, c4, ⟨v, h1, c1⟩, ⟨l, h3, c3⟩, ⟨po, so, c5, c7⟩, ⟨pi, si, c6, c8⟩, ?_, ?_, ?_,
      ?_⟩, ⟨c2, v, h1, c1⟩, ⟨c4, l, h3, c3⟩, ⟨po, c5, c7⟩, ⟨pi, c6, c8⟩, ?_, ?_, ?_, ?_, ?_, ?_⟩
    · exact fun u e' => (lab u e').2
    · intro u e'
      cases e1 : V .num_edges_label with
      | none =>
        rcases tot e1 u e' with ⟨_, h⟩ | ⟨_, h, _⟩
        · exact .inl ⟨rfl, h⟩
        · exact .inr h
      | some w =>
        obtain ⟨x, rfl, hx⟩ := hB (by rw [e1]; rfl) u e'
        exact .inr ⟨fun _ _ _ h => (by cases h), x, .inl rfl, hx⟩
    · intro u e'
      obtain ⟨b, q, -, d1, d2, ⟨-, x, d3, d4⟩ | ⟨-, d3, d4⟩⟩ := par u e'
      · refine .inl ⟨x, d3, ?_⟩
        rw [← d4 0 (by omega)]; exact d2 0 (by omega)
      · exact .inr ⟨d3, q.f, d4, d2⟩
    · by_contra hcon
      push Not at hcon
      simp only [ne_eq, Bool.not_eq_true, Option.isSome_eq_false_iff, Option.isNone_iff_eq_none]
        at hcon
      obtain ⟨e1, e2, e3⟩ := hcon
      have := non e2 e1
      cases this
      exact h11 ⟨rfl, rfl, by rw [parn e3]; rfl⟩
    · intro u e'
      obtain ⟨d1, d2⟩ := lab u e'
      cases d1
      exact ⟨rfl, d2⟩
    · intro e1 u e2
      rcases tot e1 u e2 with ⟨d1, d2⟩ | ⟨d1, d2, d3⟩
      · cases d1; exact .inl ⟨d2, rfl⟩
      · cases d1; exact .inr ⟨d2, rfl, d3⟩
    · intro e1 e2
      cases non e1 e2
      exact ⟨rfl, rfl⟩
    · intro e1
      show p.map Prod.snd = none
      rw [parn e1]; rfl
    · intro u e'
      obtain ⟨b, q, rfl, d1, d2, d3⟩ := par u e'
      refine ⟨q, rfl, d1, d2, ?_⟩
      rcases d3 with ⟨-, d3⟩ | ⟨-, -, d3⟩
      · exact .inl d3
      · exact .inr d3
    · show f.selfloops.getD (.bool false) = _
      rw [v6]
  refine ⟨⟨fun ⟨o, h⟩ => (sound o h).1, ?_⟩, fun o h => (sound o h).2⟩
  rintro ⟨n, L, hn, hL, ⟨v, h1, h2⟩, ⟨l, h3, h4⟩, ⟨po, so, h5, h6⟩, ⟨pi, si, h7, h8⟩, h9, h10, h11,
    h12⟩
  have hE : ∃ r : Option Val × Option Val × Option Bool,
      edgeChecks L f.num_edges f.num_edges_label = .ok r ∧
      ((V .num_edges).isSome ∨ (V .num_edges_label).isSome → r.1.isSome ∨ r.2.1.isSome) := by
    rw [v2, v8]
    cases e1 : V .num_edges_label with
    | some u =>
      refine ⟨(V .num_edges, some u, some true),
        (edgeChecks_label (hA .num_edges_label (by simp) u e1) ?_ _).2 ⟨rfl, h9 u e1⟩,
        fun _ => .inr rfl⟩
      intro v' e''
      obtain ⟨x, hx, _⟩ := hB (by rw [e1]; rfl) v' e''
      exact ⟨x, hx⟩
    | none =>
      cases e2 : V .num_edges with
      | none => exact ⟨(none, none, none), rfl, by simp⟩
      | some u =>
        obtain ⟨r, hr⟩ := edgeChecks_complete (L := L) (hA .num_edges (by simp) u e2)
          (by rcases h10 u e2 with ⟨_, h⟩ | h
              · exact .inl h
              · exact .inr h)
        refine ⟨r, hr, fun _ => ?_⟩
        rcases edgeChecks_total (hA .num_edges (by simp) u e2) r hr with ⟨rfl, _⟩ | ⟨_, _, _, w, _, d, _⟩
        · exact .inl rfl
        · exact .inl (by rw [d]; rfl)
  obtain ⟨⟨m, ml, e⟩, hE1, hE2⟩ := hE
  have hP : ∃ p : Option (Bool × Param), paramsIfSet L f.param = .ok p ∧
      p.isSome = (V .param).isSome := by
    rw [v5]
    cases e1 : V .param with
    | none => exact ⟨none, rfl, rfl⟩
    | some u =>
      rcases h11 u e1 with ⟨x, d1, d2⟩ | ⟨d0, θ, d1, d2⟩
      · obtain ⟨p, hp⟩ := params_complete.1 x (hA .param (by simp) u e1) d1 d2
        exact ⟨some (false, p), (bind_ok _ _ _).2 ⟨_, hp, rfl⟩, rfl⟩
      · obtain ⟨p, hp⟩ := params_complete.2 θ d0 d1 d2
        exact ⟨some (true, p), (bind_ok _ _ _).2 ⟨_, hp, rfl⟩, rfl⟩
  obtain ⟨p, hP1, hP2⟩ := hP
  refine ⟨_, (check_iff kw f _).2 ⟨v, n, l, L, po, pi, so, si, m, ml, e, p, v1.trans h1,
    (count_iff _ _).2 ⟨h2, hn⟩, v7.trans h3, (count_iff _ _).2 ⟨h4, hL⟩,
    (required_iff _ _).2 ⟨v3.trans h5, IsTable.ne_empty h6⟩,
    (required_iff _ _).2 ⟨v4.trans h7, IsTable.ne_empty h8⟩,
    (table_iff (hT .prop_out (by simp) po h5) _ _ _).2 h6,
    (table_iff (hT .prop_in (by simp) pi h7) _ _ _).2 h8, hE1, hP1, ?_, rfl⟩⟩
  rintro ⟨d1, d2, d3⟩
  rcases h12 with h | h | h
  · rcases hE2 (.inl h) with h | h
    · cases m <;> simp_all
    · cases ml <;> simp_all
  · rcases hE2 (.inr h) with h | h
    · cases m <;> simp_all
    · cases ml <;> simp_all
  · rw [← hP2] at h; cases p <;> simp_all

theorem fromArgs_ok {args : List Val} {f : Fields} (h : fromArgs args = .ok f) :
    FirstMulti args ∧ ∀ k, f.get k = graphValues args k := by
  cases args with
  | nil => cases h; exact ⟨(by rintro v rest h; cases h), fun k => (by cases k <;> rfl)⟩
  | cons v rest =>
    cases v with
    | graph k n m w so si g L ml bl =>
      simp only [fromArgs] at h
      split at h
      · rename_i hk
        cases h
        refine ⟨?_, fun k => by cases k <;> rfl⟩
        intro v r h; cases h
        exact ⟨n, m, w, so, si, g, L, ml, bl, by rw [hk]⟩
      · cases h
    | _ => cases h

theorem unknown_not_allowed (s : String) : Key.unknown s ∉ allowed := by simp [allowed]

theorem init_iff (args : List Val) (kw : List (Key × Val)) (o : Obj) :
    init args kw = .ok o ↔ FirstMulti args ∧ (∀ e ∈ kw, e.1 ∈ allowed) ∧
      ∃ f, (∀ k, f.get k = value args kw k) ∧ setOptions allowed
        ((fromArgs args).toOption.getD {}) kw = .ok f ∧ check kw f = .ok o := by
  constructor
  · intro h
    obtain ⟨f, hf, h⟩ := (bind_ok _ _ _).1 h
    obtain ⟨f', hf', h⟩ := (bind_ok _ _ _).1 h
    rcases setOptions_spec allowed unknown_not_allowed kw f with ⟨_, h'⟩ | ⟨hk, f'', h', hg⟩
    · rw [h'] at hf'; cases hf'
    rw [h'] at hf'; cases hf'
    obtain ⟨d1, d2⟩ := fromArgs_ok hf
    refine ⟨d1, hk, f', fun k => ?_, by rw [hf]; exact h', h⟩
    rw [hg k]; exact given_congr kw k (d2 k)
  · rintro ⟨d1, hk, f', hV, hs, h⟩
    have hf : ∃ f, fromArgs args = .ok f := by
      cases args with
      | nil => exact ⟨_, rfl⟩
      | cons v rest =>
        obtain ⟨n, m, w, so, si, g, L, ml, bl, rfl⟩ := d1 v rest rfl
        exact ⟨_, rfl⟩
    obtain ⟨f, hf⟩ := hf
    rw [hf] at hs
    exact (bind_ok _ _ _).2 ⟨f, hf, (bind_ok _ _ _).2 ⟨f', hs, h⟩⟩

/-- **C46** (multi-layer models, sparse and dense). -/
theorem C46_multi_partial (args : List Val) (kw : List (Key × Val)) (hc : Clean (value args kw)) :
    ((∃ o, init args kw = .ok o) ↔ Valid args kw) ∧
      ∀ o, init args kw = .ok o → Holds (value args kw) o := by
  refine ⟨⟨?_, ?_⟩, ?_⟩
  · rintro ⟨o, h⟩
    obtain ⟨d1, hk, f, hV, _, h⟩ := (init_iff args kw o).1 h
    exact ⟨d1, hk, (check_spec kw f _ hV hc).1.1 ⟨o, h⟩⟩
  · rintro ⟨d1, hk, hv⟩
    have hf : ∃ f, fromArgs args = .ok f := by
      cases args with
      | nil => exact ⟨_, rfl⟩
      | cons v rest =>
        obtain ⟨n, m, w, so, si, g, L, ml, bl, rfl⟩ := d1 v rest rfl
        exact ⟨_, rfl⟩
    obtain ⟨f, hf⟩ := hf
    rcases setOptions_spec allowed unknown_not_allowed kw f with ⟨⟨e, he, he'⟩, _⟩ | ⟨_, f', h', hg⟩
    · exact absurd (hk e he) he'
    have hV : ∀ k, f'.get k = value args kw k := fun k => by
      rw [hg k]; exact given_congr kw k ((fromArgs_ok hf).2 k)
    obtain ⟨o, ho⟩ := (check_spec kw f' _ hV hc).1.2 hv
    exact ⟨o, (bind_ok _ _ _).2 ⟨f, hf, (bind_ok _ _ _).2 ⟨f', h', ho⟩⟩⟩
  · intro o h
    obtain ⟨d1, hk, f, hV, _, h⟩ := (init_iff args kw o).1 h
    exact (check_spec kw f _ hV hc).2 o h

/-- Two vertices, two labels, `m` edges in total. -/
def exKw (k : Key) (v : Val) : List (Key × Val) :=
  [(.num_vertices, .num (fin 2)), (.num_labels, .num (fin 2)),
    (.prop_out, .arr .float [2, 2] (fun _ => fin 1)), (.prop_in, .sparse [2, 2] [fin 1]), (k, v)]

/-- The arguments `exKw` are valid with a total number of edges. -/
theorem exKw_total : Clean (value [] (exKw .num_edges (.num (fin 3)))) ∧
    Valid [] (exKw .num_edges (.num (fin 3))) := by
  refine ⟨⟨?_, ?_, ?_⟩, ?_, by simp [exKw], 2, 2, by norm_num, by norm_num,
    ⟨_, rfl, .inl (by norm_num)⟩, ⟨_, rfl, .inl (by norm_num)⟩,
    ⟨_, _, rfl, .inl ⟨.float, 2, 2, _, rfl, by simp, rfl, rfl, ?_, rfl⟩⟩,
    ⟨_, _, rfl, .inr ⟨2, 2, rfl, rfl, rfl, ?_⟩⟩, ?_, ?_, ?_, .inl rfl⟩
  · intro k hk v h
    simp only [List.mem_cons, List.not_mem_nil, or_false] at hk
    rcases hk with rfl | rfl
    · cases (show some (Val.arr .float [2, 2] (fun _ => fin 1)) = some v from h)
      simp [CleanTable, entries]
    · cases (show some (Val.sparse [2, 2] [fin 1]) = some v from h)
      simp [CleanTable]
  · intro k hk v h
    simp only [List.mem_cons, List.not_mem_nil, or_false] at hk
    rcases hk with rfl | rfl | rfl
    · cases (show some (Val.num (fin 3)) = some v from h)
      simp [CleanArg]
    · cases (show (none : Option Val) = some v from h)
    · cases (show (none : Option Val) = some v from h)
  · intro h; cases (show (none : Option Val).isSome = true from h)
  · intro v r h; cases h
  · intro i _; simp [Nonneg]
  · intro x hx; simp at hx; subst hx; simp [Nonneg]
  · intro v h; cases (show (none : Option Val) = some v from h)
  · intro v h
    cases (show some (Val.num (fin 3)) = some v from h)
    exact .inr ⟨fun _ _ _ h => (by cases h), fin 3, .inl rfl, by simp [Nonneg]⟩
  · intro v h; cases (show (none : Option Val) = some v from h)

/-- The hypothesis of `C46_multi_partial` holds, and the arguments are accepted. -/
example : Clean (value [] (exKw .num_edges (.num (fin 3)))) ∧
    ∃ o, init [] (exKw .num_edges (.num (fin 3))) = .ok o :=
  ⟨exKw_total.1, (C46_multi_partial _ _ exKw_total.1).1.2 exKw_total.2⟩

/-- A directed multigraph of two vertices with two labels and an edge of each. -/
def exGraph : Val := .graph .multidigraph 2 2 none (fun _ => 1) (fun _ => 1) none 2 (fun _ => 1)
  ([1, 1], [1, 1])

/-- What it provides. -/
def exFields : Fields where
  num_vertices := some (.num (fin (2 : ℕ)))
  num_labels := some (.num (fin (2 : ℕ)))
  num_edges := some (.num (fin (2 : ℕ)))
  num_edges_label := some (.arr .int [2] (fun _ => fin (1 : ℕ)))
  prop_out := some (.sparse [2, 2] [fin 1, fin 1])
  prop_in := some (.sparse [2, 2] [fin 1, fin 1])
  per_label := some (.bool true)

theorem exGraph_table : table 2 2 (.sparse [2, 2] [fin 1, fin 1]) = .ok [fin 1, fin 1] := by
  simp [table, ltb, zero_def]

theorem count_two : count (.num (fin (2 : ℕ))) = .ok 2 :=
  (count_iff _ _).2 ⟨.inl (by norm_num), by norm_num⟩

theorem exGraph_edges (v : Val) (h : ∀ dt s f, v ≠ .arr dt s f) :
    edgeChecks 2 (some v) (some (.arr .int [2] (fun _ => fin (1 : ℕ)))) =
      .ok (some v, some (.arr .int [2] (fun _ => fin (1 : ℕ))), some true) := by
  unfold edgeChecks
  rw [edgeArray_other h, ok_bind]
  have : labelCounts 2 (.arr .int [2] (fun _ => fin (1 : ℕ))) = .ok () := by
    rw [labelCounts_iff]
    · exact ⟨.int, 2, _, rfl, rfl, rfl, fun i _ => by simp [Nonneg]⟩
    · simp [CleanArg, entries]
  simp only [edges, this]
  rfl

/-- **C46** and **C47** do not hold for a multigraph with an explicit number of edges: whatever it
is - negative, not a number at all - it is accepted, and the model stays constrained by the edges of
the graph per label. -/
theorem C46_multi_override_violated (v : Val) (h : ∀ dt s f, v ≠ .arr dt s f) :
    ∃ o, init [exGraph] [(.num_edges, v)] = .ok o ∧
      o.num_edges_label = some (.arr .int [2] (fun _ => fin (1 : ℕ))) ∧
      o.per_label = some (.bool true) := by
  refine ⟨⟨2, 2, [fin 1, fin 1], [fin 1, fin 1], some v, _, none, .bool false,
    some (.bool true)⟩, ?_, rfl, rfl⟩
  rw [init, show fromArgs [exGraph] = .ok exFields from rfl, ok_bind, setOptions_cons (by simp [allowed]), setOptions_nil, ok_bind]
  refine (check_iff _ _ _).2 ⟨_, 2, _, 2, _, _, _, _, _, _, some true, none, rfl, count_two, rfl,
    count_two, rfl, rfl, exGraph_table, exGraph_table, exGraph_edges v h, rfl, ?_, rfl⟩
  rintro ⟨h, _⟩; cases h

/-- ... and an array with an explicit number of edges of each label is rejected. -/
theorem C46_multi_array_violated (f : ℕ → XR) :
    init [exGraph] [(.num_edges, .arr .int [2] f)] = .error .conflict := by
  rw [init, show fromArgs [exGraph] = .ok exFields from rfl, ok_bind, setOptions_cons (by simp [allowed]), setOptions_nil, ok_bind]
  simp only [check, exFields, Fields.set, count_two, ok_bind, required, exGraph_table]
  rw [show edgeArray 2 (some (.arr .int [2] f)) (some (.arr .int [2] (fun _ => fin (1 : ℕ)))) =
    .error .conflict by simp [edgeArray]]
  rfl

/-! ## C47 -/

/-- Number of parameters given. -/
def size : Val → ℕ
  | .list l => l.length
  | .arr _ (k :: _) _ => k
  | _ => 1

theorem params_size {L : ℤ} {v : Val} {b : Bool} {p : Param} (h : params L v = .ok (b, p)) :
    b = false ↔ size v = 1 := by
  have go : ∀ (dt : Dt) (k : ℕ) (rest : List ℕ) (f : ℕ → XR),
      params.go L dt (k :: rest) f = .ok (b, p) → (b = false ↔ k = 1) := by
    intro dt k rest f h
    simp only [params.go] at h
    split at h
    · rename_i hk
      obtain ⟨q, _, h2⟩ := (bind_ok _ _ _).1 h
      cases h2; simp [hk]
    · rename_i hk
      split at h
      · cases h
      · obtain ⟨q, _, h2⟩ := (bind_ok _ _ _).1 h
        cases h2; simp [hk]
  cases v with
  | list l => exact go .float l.length [] _ h
  | arr dt shape f =>
    cases shape with
    | nil => cases h
    | cons k rest => exact go dt k rest f h
  | num x => exact go .float 1 [] (fun _ => x) h
  | bool x => exact go .bool 1 [] (fun _ => 0) h
  | sparse => exact go .object 1 [] (fun _ => 0) h
  | graph => exact go .object 1 [] (fun _ => 0) h
  | empty => exact go .object 1 [] (fun _ => 0) h
  | other => exact go .object 1 [] (fun _ => 0) h

/-- **C47**: `per_label` of a constructed model. An explicit one is taken; otherwise the parameters
decide if they are given (shared if there is one, per label if there are more), then the numbers of
edges per label, then the number of edges (per label if it is an array with an entry for each
label). No other case exists. -/
theorem C47_per_label_partial (args : List Val) (kw : List (Key × Val)) (o : Obj)
    (h : init args kw = .ok o) :
    (∀ v, given (fun _ => none) kw .per_label = some v → o.per_label = some v) ∧
    (given (fun _ => none) kw .per_label = none →
      (∀ v, value args kw .param = some v →
        ∃ b, o.per_label = some (.bool b) ∧ (b = true ↔ size v ≠ 1)) ∧
      (value args kw .param = none → ∀ v, value args kw .num_edges_label = some v →
        o.per_label = some (.bool true)) ∧
      (value args kw .param = none → value args kw .num_edges_label = none →
        ∃ v b, value args kw .num_edges = some v ∧ o.per_label = some (.bool b) ∧
          (b = true ↔ ∃ dt k rest f, v = .arr dt (k :: rest) f ∧ (k : ℤ) = o.num_labels))) := by
  obtain ⟨-, -, f, hV, -, h⟩ := (init_iff args kw o).1 h
  obtain ⟨v, n, l, L, po, pi, so, si, m, ml, e, p, h1, h2, h3, h4, h5, h6, h7, h8, h9, h10, h11,
      rfl⟩ := (check_iff kw f o).1 h
  rw [show f.num_edges = _ from hV .num_edges, show f.num_edges_label = _ from hV .num_edges_label]
    at h9
  rw [show f.param = _ from hV .param] at h10
  have hpl : f.per_label = value args kw .per_label := hV .per_label
  have hany : (∀ v, given (fun _ => none) kw .per_label = some v →
      kw.any (fun k => k.1 = .per_label) = true ∧ value args kw .per_label = some v) ∧
      (given (fun _ => none) kw .per_label = none →
        kw.any (fun k => k.1 = .per_label) = false) := by
    unfold value given
    constructor
    · intro v hv
      cases hf : kw.reverse.find? (fun e => e.1 = .per_label) with
      | none => rw [hf] at hv; cases hv
      | some x =>
        rw [hf] at hv
        refine ⟨?_, hv⟩
        rw [List.any_eq_true]
        exact ⟨x, List.mem_reverse.1 (List.mem_of_find?_eq_some hf), by
          simpa using List.find?_some hf⟩
    · intro hv
      cases hf : kw.reverse.find? (fun e => e.1 = .per_label) with
      | some x => rw [hf] at hv; cases hv
      | none =>
        rw [List.any_eq_false]
        intro x hx
        exact List.find?_eq_none.1 hf x (List.mem_reverse.2 hx)
  constructor
  · intro u hu
    obtain ⟨a1, a2⟩ := hany.1 u hu
    show lastPerLabel kw f e p = _
    unfold lastPerLabel
    rw [if_pos a1, hpl, a2]
  · intro hu
    have ha := hany.2 hu
    have hlast : lastPerLabel kw f e p = chosen f e p := by
      unfold lastPerLabel
      rw [ha]; rfl
    refine ⟨?_, ?_, ?_⟩
    · intro u e'
      rw [e'] at h10
      obtain ⟨⟨b, q⟩, d1, d2⟩ := (bind_ok _ _ _).1 h10
      cases d2
      refine ⟨b, hlast, ?_⟩
      have := params_size d1
      cases b <;> simp_all
    · intro e' u e''
      rw [e'] at h10
      cases h10
      rw [e''] at h9
      obtain ⟨a, c1, h9⟩ := (bind_ok _ _ _).1 h9
      obtain ⟨e1, c2, h9⟩ := (bind_ok _ _ _).1 h9
      cases h9
      have ha2 : a.2 = some u := by
        unfold edgeArray at c1
        split at c1
        · cases c1
        · split at c1
          · cases c1
          · split at c1
            · cases c1; rfl
            · cases c1
        · cases c1; rfl
      rw [ha2] at c2
      simp only [edges] at c2
      obtain ⟨_, _, c2⟩ := (bind_ok _ _ _).1 c2
      cases c2
      exact hlast
    · intro e' e''
      rw [e'] at h10
      cases h10
      rw [e''] at h9
      obtain ⟨a, c1, h9⟩ := (bind_ok _ _ _).1 h9
      obtain ⟨e1, c2, h9⟩ := (bind_ok _ _ _).1 h9
      cases h9
      cases hm : value args kw .num_edges with
      | none =>
        rw [hm] at c1
        cases c1
        cases c2
        exact absurd ⟨rfl, rfl, rfl⟩ h11
      | some u =>
        rw [hm] at c1
        refine ⟨u, ?_⟩
        by_cases harr : ∃ dt s f, u = .arr dt s f
        · obtain ⟨dt, s, g, rfl⟩ := harr
          cases s with
          | nil => cases c1
          | cons k rest =>
            simp only [edgeArray] at c1
            by_cases hk : (k : ℤ) = L
            · rw [if_pos hk] at c1
              cases c1
              simp only [edges] at c2
              obtain ⟨_, _, c2⟩ := (bind_ok _ _ _).1 c2
              cases c2
              exact ⟨true, rfl, hlast, ⟨fun _ => ⟨dt, k, rest, g, rfl, hk⟩, fun _ => rfl⟩⟩
            · rw [if_neg hk] at c1
              split at c1
              · cases c1
                simp only [edges] at c2
                obtain ⟨_, _, c2⟩ := (bind_ok _ _ _).1 c2
                cases c2
                refine ⟨false, rfl, hlast, ?_⟩
                constructor
                · intro h; cases h
                · rintro ⟨_, _, _, _, h, h'⟩; cases h; exact absurd h' hk
              · cases c1
        · have harr : ∀ dt s f, u ≠ .arr dt s f := fun dt s f e => harr ⟨dt, s, f, e⟩
          rw [edgeArray_other harr] at c1
          cases c1
          simp only [edges] at c2
          obtain ⟨_, _, c2⟩ := (bind_ok _ _ _).1 c2
          cases c2
          refine ⟨false, rfl, hlast, ?_⟩
          constructor
          · intro h; cases h
          · rintro ⟨dt, k, rest, g, h, _⟩; exact absurd h (harr _ _ _)

/-- A single number of edges gives a shared parameter: `C47_per_label_partial` applies to `exKw`. -/
example : ∃ o, init [] (exKw .num_edges (.num (fin 3))) = .ok o ∧
    o.per_label = some (.bool false) := by
  obtain ⟨o, ho⟩ := (C46_multi_partial _ _ exKw_total.1).1.2 exKw_total.2
  obtain ⟨v, b, h1, h2, h3⟩ := ((C47_per_label_partial _ _ o ho).2 rfl).2.2 rfl rfl
  refine ⟨o, ho, ?_⟩
  cases (show some (Val.num (fin 3)) = some v from h1)
  cases b
  · exact h2
  · obtain ⟨_, _, _, _, h, _⟩ := h3.1 rfl; cases h

/-- **C47** does not hold for a multigraph with an explicit single number of edges: the model is
per label. (`C47_per_label_partial` says that the numbers per label, here those of the graph, decide.) -/
theorem C47_violated : ∃ o, init [exGraph] [(.num_edges, .num (fin 7))] = .ok o ∧
    o.per_label = some (.bool true) := by
  obtain ⟨o, h1, _, h2⟩ := C46_multi_override_violated (.num (fin 7)) (by simp)
  exact ⟨o, h1, h2⟩

end

end Verif.Validate.MultiFitnessModel
