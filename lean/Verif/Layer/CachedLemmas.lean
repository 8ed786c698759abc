import Verif.Layer.Cached
import Verif.Spark.Props
import Verif.Sampled.MeanProps

/-! # Label-resolved queries after a history of calls: vocabulary and lemmas for C76 -/

namespace Verif

noncomputable section

open XR Spec
open scoped ENNReal

namespace Layer.Cached

/-- The three groups of queries that share cached attributes. -/
inductive Fam where
  | edges | label | degrees
  deriving DecidableEq

/-- The group of a query; `none` for the other calls. -/
def Op.fam : Op → Option Fam
  | .fit _ => none
  | .setSelfloops _ => none
  | .numEdges _ => some .edges
  | .numEdgesLabel _ => some .label
  | .degree _ => some .degrees
  | .outDegree _ => some .degrees
  | .inDegree _ => some .degrees

/-- The argument `recompute` of a query. -/
def Op.again : Op → Bool
  | .fit _ => false
  | .setSelfloops _ => false
  | .numEdges r => r
  | .numEdgesLabel r => r
  | .degree r => r
  | .outDegree r => r
  | .inDegree r => r

/-- What a query should return for parameters `θ` and self-loop setting `b`: the values of the
loops. -/
def fresh (C : Comp) (θ : ℕ → XR) (b : Bool) : Op → Except Err Ret
  | .fit _ => .ok .none
  | .setSelfloops _ => .ok .none
  | .numEdges _ => .ok (.num (C.edges θ b))
  | .numEdgesLabel _ => (C.edgesLabel θ b).map .list
  | .degree _ => (C.degrees θ b).map (fun D => .mat D.d)
  | .outDegree _ => (C.degrees θ b).map (fun D => .mat D.dOut)
  | .inDegree _ => (C.degrees θ b).map (fun D => .mat D.dIn)

/-- The parameters in force after a history: those of the last `fit`. -/
def paramAfter (p0 : Option (ℕ → XR)) (ops : List Op) : Option (ℕ → XR) :=
  ops.foldl (fun p op => match op with
    | .fit θ => some θ
    | _ => p) p0

/-- The self-loop setting in force after a history. -/
def loopsAfter (b0 : Bool) (ops : List Op) : Bool :=
  ops.foldl (fun b op => match op with
    | .setSelfloops b' => b'
    | _ => b) b0

/-! ## Lemmas -/

theorem map_fst {α β : Type} (f : α → β) (m : M α) (s : St) :
    (M.map f m s).1 = (m s).1.map f := by
  unfold M.map M.bind
  cases h : m s with
  | mk r s' => cases r <;> rfl

theorem map_snd {α β : Type} (f : α → β) (m : M α) (s : St) : (M.map f m s).2 = (m s).2 := by
  unfold M.map M.bind
  cases h : m s with
  | mk r s' => cases r <;> rfl

theorem run_append (B : Backend) (C : Comp) (a b : List Op) (s : St) :
    (run B C (a ++ b) s).1 = (run B C a s).1 ++ (run B C b (run B C a s).2).1 ∧
    (run B C (a ++ b) s).2 = (run B C b (run B C a s).2).2 := by
  induction a generalizing s with
  | nil => exact ⟨rfl, rfl⟩
  | cons op a ih =>
    have h := ih (call B C op s).2
    refine ⟨?_, h.2⟩
    show _ :: (run B C (a ++ b) (call B C op s).2).1 = _ :: _ ++ _
    rw [h.1]
    rfl

theorem run_length (B : Backend) (C : Comp) (a : List Op) (s : St) :
    (run B C a s).1.length = a.length := by
  induction a generalizing s with
  | nil => rfl
  | cons op a ih =>
    show (_ :: (run B C a (call B C op s).2).1).length = _
    rw [List.length_cons, ih, List.length_cons]

/-- The result of a call made after a history. -/
def after (B : Backend) (C : Comp) (ops : List Op) (q : Op) (s : St) : Except Err Ret :=
  (call B C q (run B C ops s).2).1

theorem run_snoc (B : Backend) (C : Comp) (ops : List Op) (q : Op) (s : St) :
    (run B C (ops ++ [q]) s).1 = (run B C ops s).1 ++ [after B C ops q s] :=
  (run_append B C ops [q] s).1

theorem get_snd {α : Type} (o : St → Option α) (s : St) : (get o s).2 = s := by
  unfold get; split <;> rfl

theorem get_fst {α : Type} (o : St → Option α) (s : St) {v : α} (h : o s = some v) :
    (get o s).1 = .ok v := by
  unfold get; rw [h]

/-- The settings after a call. -/
theorem call_settings (B : Backend) (C : Comp) (op : Op) (s : St) :
    (call B C op s).2.param = paramAfter s.param [op] ∧
    (call B C op s).2.selfloops = loopsAfter s.selfloops [op] := by
  have hdeg : ∀ r, (expected_degree_by_label C r s).2.param = s.param ∧
      (expected_degree_by_label C r s).2.selfloops = s.selfloops := by
    intro r
    unfold expected_degree_by_label
    split
    · exact ⟨rfl, rfl⟩
    · split
      · split
        · exact ⟨rfl, rfl⟩
        · rw [get_snd]; exact ⟨rfl, rfl⟩
      · rw [get_snd]; exact ⟨rfl, rfl⟩
  have hbind : ∀ r (o : St → Option (ℕ → ℕ → XR)),
      ((expected_degree_by_label C r).bind (fun _ => get o) s).2.param = s.param ∧
      ((expected_degree_by_label C r).bind (fun _ => get o) s).2.selfloops = s.selfloops := by
    intro r o
    have h := hdeg r
    unfold M.bind
    cases hm : expected_degree_by_label C r s with
    | mk a s' =>
      rw [hm] at h
      cases a with
      | error e => exact h
      | ok v => dsimp only; rw [get_snd]; exact h
  cases op with
  | fit θ => exact ⟨rfl, rfl⟩
  | setSelfloops b => exact ⟨rfl, rfl⟩
  | numEdges r =>
    unfold call
    rw [map_snd]
    cases B <;> dsimp only
    · unfold expected_num_edges
      split
      · exact ⟨rfl, rfl⟩
      · split <;> rw [get_snd] <;> exact ⟨rfl, rfl⟩
    · unfold Spark.expected_num_edges
      split
      · exact ⟨rfl, rfl⟩
      · split <;> rw [get_snd] <;> exact ⟨rfl, rfl⟩
  | numEdgesLabel r =>
    unfold call
    rw [map_snd]
    unfold expected_num_edges_label
    split
    · exact ⟨rfl, rfl⟩
    · split
      · split
        · exact ⟨rfl, rfl⟩
        · rw [get_snd]; exact ⟨rfl, rfl⟩
      · rw [get_snd]; exact ⟨rfl, rfl⟩
  | degree r =>
    unfold call
    rw [map_snd]
    exact hdeg r
  | outDegree r =>
    unfold call
    rw [map_snd]
    cases B <;> dsimp only
    · unfold degree_part
      split
      · exact hbind r _
      · rw [get_snd]; exact ⟨rfl, rfl⟩
    · unfold Spark.degree_part
      split
      · exact hbind false _
      · rw [get_snd]; exact ⟨rfl, rfl⟩
  | inDegree r =>
    unfold call
    rw [map_snd]
    cases B <;> dsimp only
    · unfold degree_part
      split
      · exact hbind r _
      · rw [get_snd]; exact ⟨rfl, rfl⟩
    · unfold Spark.degree_part
      split
      · exact hbind false _
      · rw [get_snd]; exact ⟨rfl, rfl⟩

/-- The settings after a history. -/
theorem run_settings (B : Backend) (C : Comp) (ops : List Op) (s : St) :
    (run B C ops s).2.param = paramAfter s.param ops ∧
    (run B C ops s).2.selfloops = loopsAfter s.selfloops ops := by
  induction ops generalizing s with
  | nil => exact ⟨rfl, rfl⟩
  | cons op ops ih =>
    have h := ih (call B C op s).2
    have h1 := call_settings B C op s
    rw [h1.1, h1.2] at h
    exact h

/-- Nothing of a group is cached. -/
def Empty (f : Fam) (s : St) : Prop :=
  match f with
  | .edges => s.exp_num_edges = none
  | .label => s.exp_num_edges_label = none
  | .degrees => s.exp_degree_label = none ∧ s.exp_out_degree_label = none ∧
      s.exp_in_degree_label = none

/-- The values computed for `θ` and `b` are cached. -/
def Holds (C : Comp) (θ : ℕ → XR) (b : Bool) (f : Fam) (s : St) : Prop :=
  match f with
  | .edges => s.exp_num_edges = some (C.edges θ b)
  | .label => ∃ r, C.edgesLabel θ b = .ok r ∧ s.exp_num_edges_label = some r
  | .degrees => ∃ D, C.degrees θ b = .ok D ∧ s.exp_degree_label = some D.d ∧
      s.exp_out_degree_label = some D.dOut ∧ s.exp_in_degree_label = some D.dIn

/-- The cached values of the group `f` are the same. -/
def Same (f : Fam) (s s' : St) : Prop :=
  match f with
  | .edges => s'.exp_num_edges = s.exp_num_edges
  | .label => s'.exp_num_edges_label = s.exp_num_edges_label
  | .degrees => s'.exp_degree_label = s.exp_degree_label ∧
      s'.exp_out_degree_label = s.exp_out_degree_label ∧
      s'.exp_in_degree_label = s.exp_in_degree_label

theorem Same.refl (f : Fam) (s : St) : Same f s s := by
  cases f <;> simp [Same]

theorem Same.empty {f : Fam} {s s' : St} (h : Same f s s') (he : Empty f s) : Empty f s' := by
  cases f with
  | edges => exact Eq.trans h he
  | label => exact Eq.trans h he
  | degrees => exact ⟨h.1.trans he.1, h.2.1.trans he.2.1, h.2.2.trans he.2.2⟩

theorem Same.holds {C : Comp} {θ : ℕ → XR} {b : Bool} {f : Fam} {s s' : St} (h : Same f s s')
    (he : Holds C θ b f s) : Holds C θ b f s' := by
  cases f with
  | edges => exact Eq.trans h he
  | label => exact he.imp (fun r hr => ⟨hr.1, Eq.trans h hr.2⟩)
  | degrees =>
    exact he.imp (fun r hr => ⟨hr.1, h.1.trans hr.2.1, h.2.1.trans hr.2.2.1,
      h.2.2.trans hr.2.2.2⟩)

theorem deg_cases (C : Comp) (r : Bool) (s : St) :
    (expected_degree_by_label C r s).2 = s ∨
    ∃ D : Degs, (expected_degree_by_label C r s).2 =
      { s with exp_degree_label := some D.d, exp_out_degree_label := some D.dOut,
               exp_in_degree_label := some D.dIn } := by
  unfold expected_degree_by_label
  split
  · exact Or.inl rfl
  · split
    · split
      · exact Or.inl rfl
      · rename_i D _
        rw [get_snd]; exact Or.inr ⟨D, rfl⟩
    · rw [get_snd]; exact Or.inl rfl

theorem bind_get_snd (C : Comp) (r : Bool) (o : St → Option (ℕ → ℕ → XR)) (s : St) :
    ((expected_degree_by_label C r).bind (fun _ => get o) s).2
      = (expected_degree_by_label C r s).2 := by
  unfold M.bind
  cases hm : expected_degree_by_label C r s with
  | mk a s' =>
    cases a with
    | error e => rfl
    | ok v => exact get_snd o s'

/-- Queries of another group and other calls leave the cached values of a group alone. -/
theorem call_other (B : Backend) (C : Comp) (f : Fam) (op : Op) (s : St) (h : op.fam ≠ some f) :
    Same f s (call B C op s).2 := by
  have hdeg : f ≠ .degrees → ∀ r, Same f s (expected_degree_by_label C r s).2 := by
    intro hf r
    rcases deg_cases C r s with h | ⟨D, h⟩ <;> rw [h]
    · exact Same.refl f s
    · cases f with
      | edges => rfl
      | label => rfl
      | degrees => exact absurd rfl hf
  cases op with
  | fit θ => exact Same.refl f s
  | setSelfloops b => exact Same.refl f s
  | numEdges r =>
    have hf : f ≠ .edges := fun hf => h (by rw [hf]; rfl)
    unfold call
    rw [map_snd]
    cases B <;> dsimp only
    · unfold expected_num_edges
      split
      · exact Same.refl f s
      · split <;> rw [get_snd]
        · cases f <;> first | exact absurd rfl hf | exact ⟨rfl, rfl, rfl⟩ | rfl
        · exact Same.refl f s
    · unfold Spark.expected_num_edges
      split
      · exact Same.refl f s
      · split <;> rw [get_snd]
        · cases f <;> first | exact absurd rfl hf | exact ⟨rfl, rfl, rfl⟩ | rfl
        · exact Same.refl f s
  | numEdgesLabel r =>
    have hf : f ≠ .label := fun hf => h (by rw [hf]; rfl)
    unfold call
    rw [map_snd]
    unfold expected_num_edges_label
    split
    · exact Same.refl f s
    · split
      · split
        · exact Same.refl f s
        · rw [get_snd]
          cases f <;> first | exact absurd rfl hf | exact ⟨rfl, rfl, rfl⟩ | rfl
      · rw [get_snd]; exact Same.refl f s
  | degree r =>
    have hf : f ≠ .degrees := fun hf => h (by rw [hf]; rfl)
    unfold call
    rw [map_snd]
    exact hdeg hf r
  | outDegree r =>
    have hf : f ≠ .degrees := fun hf => h (by rw [hf]; rfl)
    unfold call
    rw [map_snd]
    cases B <;> dsimp only
    · unfold degree_part
      split
      · rw [bind_get_snd]; exact hdeg hf r
      · rw [get_snd]; exact Same.refl f s
    · unfold Spark.degree_part
      split
      · rw [bind_get_snd]; exact hdeg hf false
      · rw [get_snd]; exact Same.refl f s
  | inDegree r =>
    have hf : f ≠ .degrees := fun hf => h (by rw [hf]; rfl)
    unfold call
    rw [map_snd]
    cases B <;> dsimp only
    · unfold degree_part
      split
      · rw [bind_get_snd]; exact hdeg hf r
      · rw [get_snd]; exact Same.refl f s
    · unfold Spark.degree_part
      split
      · rw [bind_get_snd]; exact hdeg hf false
      · rw [get_snd]; exact Same.refl f s

/-- A query that computes: with `recompute` or with nothing cached. -/
theorem call_compute (C : Comp) {f : Fam} {op : Op} {s : St} {θ : ℕ → XR} (hop : op.fam = some f)
    (hθ : s.param = some θ) (h : op.again = true ∨ Empty f s) :
    (call .plain C op s).1 = fresh C θ s.selfloops op ∧
    ((call .plain C op s).2 = s ∨ Holds C θ s.selfloops f (call .plain C op s).2) := by
  cases op with
  | fit θ => cases hop
  | setSelfloops b => cases hop
  | numEdges r =>
    cases hop
    have hc : (s.exp_num_edges.isNone || r) = true := by
      rcases h with h | h
      · rw [show r = true from h, Bool.or_true]
      · rw [show s.exp_num_edges = none from h]; rfl
    unfold call
    rw [map_fst, map_snd]
    dsimp only
    unfold expected_num_edges
    rw [hθ]
    dsimp only
    rw [if_pos hc]
    exact ⟨rfl, Or.inr rfl⟩
  | numEdgesLabel r =>
    cases hop
    have hc : (s.exp_num_edges_label.isNone || r) = true := by
      rcases h with h | h
      · rw [show r = true from h, Bool.or_true]
      · rw [show s.exp_num_edges_label = none from h]; rfl
    unfold call
    rw [map_fst, map_snd]
    unfold expected_num_edges_label
    rw [hθ]
    dsimp only
    rw [if_pos hc]
    cases hr : C.edgesLabel θ s.selfloops with
    | error e => exact ⟨by simp [fresh, hr, Except.map], Or.inl rfl⟩
    | ok v => exact ⟨by simp [fresh, hr, Except.map, get], Or.inr ⟨v, hr, rfl⟩⟩
  | degree r =>
    cases hop
    have hc : (s.exp_degree_label.isNone || r) = true := by
      rcases h with h | h
      · rw [show r = true from h, Bool.or_true]
      · rw [h.1]; rfl
    unfold call
    rw [map_fst, map_snd]
    unfold expected_degree_by_label
    rw [hθ]
    dsimp only
    rw [if_pos hc]
    cases hr : C.degrees θ s.selfloops with
    | error e => exact ⟨by simp [fresh, hr, Except.map], Or.inl rfl⟩
    | ok D => exact ⟨by simp [fresh, hr, Except.map, get], Or.inr ⟨D, hr, rfl, rfl, rfl⟩⟩
  | outDegree r =>
    cases hop
    have hc : (s.exp_out_degree_label.isNone || r) = true := by
      rcases h with h | h
      · rw [show r = true from h, Bool.or_true]
      · rw [h.2.1]; rfl
    have hc' : (s.exp_degree_label.isNone || r) = true := by
      rcases h with h | h
      · rw [show r = true from h, Bool.or_true]
      · rw [h.1]; rfl
    unfold call
    rw [map_fst, map_snd]
    dsimp only
    unfold degree_part
    rw [if_pos hc]
    unfold M.bind expected_degree_by_label
    rw [hθ]
    dsimp only
    rw [if_pos hc']
    cases hr : C.degrees θ s.selfloops with
    | error e => exact ⟨by simp [fresh, hr, Except.map], Or.inl rfl⟩
    | ok D => exact ⟨by simp [fresh, hr, Except.map, get], Or.inr ⟨D, hr, rfl, rfl, rfl⟩⟩
  | inDegree r =>
    cases hop
    have hc : (s.exp_in_degree_label.isNone || r) = true := by
      rcases h with h | h
      · rw [show r = true from h, Bool.or_true]
      · rw [h.2.2]; rfl
    have hc' : (s.exp_degree_label.isNone || r) = true := by
      rcases h with h | h
      · rw [show r = true from h, Bool.or_true]
      · rw [h.1]; rfl
    unfold call
    rw [map_fst, map_snd]
    dsimp only
    unfold degree_part
    rw [if_pos hc]
    unfold M.bind expected_degree_by_label
    rw [hθ]
    dsimp only
    rw [if_pos hc']
    cases hr : C.degrees θ s.selfloops with
    | error e => exact ⟨by simp [fresh, hr, Except.map], Or.inl rfl⟩
    | ok D => exact ⟨by simp [fresh, hr, Except.map, get], Or.inr ⟨D, hr, rfl, rfl, rfl⟩⟩

/-- A query that finds its value: without `recompute`, with the values for `θ` and `b` cached. -/
theorem call_hit (C : Comp) {f : Fam} {op : Op} {s : St} {θ : ℕ → XR} {b : Bool}
    (hop : op.fam = some f) (hp : s.param ≠ none) (h : op.again = false) (hh : Holds C θ b f s) :
    (call .plain C op s).1 = fresh C θ b op ∧ (call .plain C op s).2 = s := by
  obtain ⟨θ', hθ⟩ := Option.ne_none_iff_exists'.1 hp
  cases op with
  | fit θ => cases hop
  | setSelfloops b => cases hop
  | numEdges r =>
    cases hop
    obtain rfl : r = false := h
    have hh : s.exp_num_edges = some (C.edges θ b) := hh
    unfold call
    rw [map_fst, map_snd]
    dsimp only
    unfold expected_num_edges
    rw [hθ]
    dsimp only
    rw [if_neg (by simp [hh]), get_snd, get_fst _ _ hh]
    exact ⟨rfl, rfl⟩
  | numEdgesLabel r =>
    cases hop
    obtain rfl : r = false := h
    obtain ⟨v, hv, hs⟩ := hh
    unfold call
    rw [map_fst, map_snd]
    unfold expected_num_edges_label
    rw [hθ]
    dsimp only
    rw [if_neg (by simp [hs]), get_snd, get_fst _ _ hs]
    exact ⟨by simp [fresh, hv, Except.map], rfl⟩
  | degree r =>
    cases hop
    obtain rfl : r = false := h
    obtain ⟨v, hv, hs, -, -⟩ := hh
    unfold call
    rw [map_fst, map_snd]
    unfold expected_degree_by_label
    rw [hθ]
    dsimp only
    rw [if_neg (by simp [hs]), get_snd, get_fst _ _ hs]
    exact ⟨by simp [fresh, hv, Except.map], rfl⟩
  | outDegree r =>
    cases hop
    obtain rfl : r = false := h
    obtain ⟨v, hv, -, hs, -⟩ := hh
    unfold call
    rw [map_fst, map_snd]
    dsimp only
    unfold degree_part
    rw [if_neg (by simp [hs]), get_snd, get_fst _ _ hs]
    exact ⟨by simp [fresh, hv, Except.map], rfl⟩
  | inDegree r =>
    cases hop
    obtain rfl : r = false := h
    obtain ⟨v, hv, -, -, hs⟩ := hh
    unfold call
    rw [map_fst, map_snd]
    dsimp only
    unfold degree_part
    rw [if_neg (by simp [hs]), get_snd, get_fst _ _ hs]
    exact ⟨by simp [fresh, hv, Except.map], rfl⟩

/-- A newly fitted object. -/
def fitted (θ : ℕ → XR) (b : Bool) : St := { init b with param := some θ }

theorem empty_init (b : Bool) (f : Fam) : Empty f (init b) := by
  cases f <;> simp [Empty, init]

theorem empty_fitted (θ : ℕ → XR) (b : Bool) (f : Fam) : Empty f (fitted θ b) := by
  cases f <;> simp [Empty, init, fitted]

theorem settings_query {B : Backend} {C : Comp} {op : Op} {s : St} (h : op.fam ≠ none) :
    (call B C op s).2.param = s.param ∧ (call B C op s).2.selfloops = s.selfloops := by
  have := call_settings B C op s
  cases op <;> first | exact absurd rfl h | exact this

/-- Calls that keep a cached group keep it over a history. -/
theorem holds_run (C : Comp) {θ : ℕ → XR} {b : Bool} {f : Fam} (ops : List Op) (s : St)
    (hp : s.param ≠ none) (hops : ∀ q ∈ ops, q.fam = some f → q.again = false)
    (hh : Holds C θ b f s) :
    Holds C θ b f (run .plain C ops s).2 ∧ (run .plain C ops s).2.param ≠ none := by
  induction ops generalizing s with
  | nil => exact ⟨hh, hp⟩
  | cons op ops ih =>
    refine ih (call .plain C op s).2 ?_ (fun q hq => hops q (by simp [hq])) ?_
    · rw [(call_settings .plain C op s).1]
      cases op <;> first | exact hp | exact Option.some_ne_none _
    · by_cases hf : op.fam = some f
      · rw [(call_hit C hf hp (hops op (by simp) hf) hh).2]; exact hh
      · exact (call_other .plain C f op s hf).holds hh

theorem empty_run (B : Backend) (C : Comp) {f : Fam} (ops : List Op) (s : St)
    (hops : ∀ q ∈ ops, q.fam ≠ some f) (he : Empty f s) : Empty f (run B C ops s).2 := by
  induction ops generalizing s with
  | nil => exact he
  | cons op ops ih =>
    exact ih _ (fun q hq => hops q (by simp [hq]))
      ((call_other B C f op s (hops op (by simp))).empty he)

/-- Computing without an exception fills the cache. -/
theorem compute_holds (C : Comp) {f : Fam} {op : Op} {s : St} {θ : ℕ → XR} (hop : op.fam = some f)
    (hθ : s.param = some θ) (h : op.again = true ∨ Empty f s) {v : Ret}
    (hv : fresh C θ s.selfloops op = .ok v) : Holds C θ s.selfloops f (call .plain C op s).2 := by
  cases op with
  | fit θ => cases hop
  | setSelfloops b => cases hop
  | numEdges r =>
    cases hop
    have hc : (s.exp_num_edges.isNone || r) = true := by
      rcases h with h | h
      · rw [show r = true from h, Bool.or_true]
      · rw [show s.exp_num_edges = none from h]; rfl
    unfold call
    rw [map_snd]
    dsimp only
    unfold expected_num_edges
    rw [hθ]
    dsimp only
    rw [if_pos hc]
    exact rfl
  | numEdgesLabel r =>
    cases hop
    have hc : (s.exp_num_edges_label.isNone || r) = true := by
      rcases h with h | h
      · rw [show r = true from h, Bool.or_true]
      · rw [show s.exp_num_edges_label = none from h]; rfl
    unfold call
    rw [map_snd]
    unfold expected_num_edges_label
    rw [hθ]
    dsimp only
    rw [if_pos hc]
    cases hr : C.edgesLabel θ s.selfloops with
    | error e => simp [fresh, hr, Except.map] at hv
    | ok v => exact ⟨v, hr, rfl⟩
  | degree r =>
    cases hop
    have hc : (s.exp_degree_label.isNone || r) = true := by
      rcases h with h | h
      · rw [show r = true from h, Bool.or_true]
      · rw [h.1]; rfl
    unfold call
    rw [map_snd]
    unfold expected_degree_by_label
    rw [hθ]
    dsimp only
    rw [if_pos hc]
    cases hr : C.degrees θ s.selfloops with
    | error e => simp [fresh, hr, Except.map] at hv
    | ok D => exact ⟨D, hr, rfl, rfl, rfl⟩
  | outDegree r =>
    cases hop
    have hc : (s.exp_out_degree_label.isNone || r) = true := by
      rcases h with h | h
      · rw [show r = true from h, Bool.or_true]
      · rw [h.2.1]; rfl
    have hc' : (s.exp_degree_label.isNone || r) = true := by
      rcases h with h | h
      · rw [show r = true from h, Bool.or_true]
      · rw [h.1]; rfl
    unfold call
    rw [map_snd]
    dsimp only
    unfold degree_part
    rw [if_pos hc, bind_get_snd]
    unfold expected_degree_by_label
    rw [hθ]
    dsimp only
    rw [if_pos hc']
    cases hr : C.degrees θ s.selfloops with
    | error e => simp [fresh, hr, Except.map] at hv
    | ok D => exact ⟨D, hr, rfl, rfl, rfl⟩
  | inDegree r =>
    cases hop
    have hc : (s.exp_in_degree_label.isNone || r) = true := by
      rcases h with h | h
      · rw [show r = true from h, Bool.or_true]
      · rw [h.2.2]; rfl
    have hc' : (s.exp_degree_label.isNone || r) = true := by
      rcases h with h | h
      · rw [show r = true from h, Bool.or_true]
      · rw [h.1]; rfl
    unfold call
    rw [map_snd]
    dsimp only
    unfold degree_part
    rw [if_pos hc, bind_get_snd]
    unfold expected_degree_by_label
    rw [hθ]
    dsimp only
    rw [if_pos hc']
    cases hr : C.degrees θ s.selfloops with
    | error e => simp [fresh, hr, Except.map] at hv
    | ok D => exact ⟨D, hr, rfl, rfl, rfl⟩

/-! ### The jobs of the spark backend -/

theorem bump_some (s : Dicts) (key : ℕ × ℕ) (v vo vi : XR) (k : ℕ × ℕ) :
    ((bump s key v vo vi).d k).isSome = true ↔ (s.d k).isSome = true ∨ k = key := by
  unfold bump
  by_cases h : k = key
  · subst h
    split <;> rename_i hs
    · simp [inc, hs]
    · simp [set]
  · split <;> simp [inc, set, h]

theorem spark_step_some (p_ijk : XR → XR → XR → XR → XR) (param : XR) (p_out p_in : List (ℕ × XR))
    (dyad : ℕ → ℕ → XR) (s : Bool) (lbl : ℕ) (a : ℕ × XR) (t : Dicts) (b : ℕ × XR) (k : ℕ × ℕ) :
    ((Layer.Spark.exp_degrees_step p_ijk param p_out p_in dyad s lbl a t b).d k).isSome = true ↔
      (t.d k).isSome = true ∨
        (admissible a.1 b.1 s = true ∧ (k = (a.1, lbl) ∨ k = (b.1, lbl))) := by
  unfold Layer.Spark.exp_degrees_step admissible
  by_cases h : a.1 = b.1
  · rw [if_neg (by simpa using h)]
    cases s
    · simp [h]
    · simp [bump_some, h]
  · rw [if_pos h]
    simp only [bump_some]
    simp [h, or_assoc]

theorem foldl_some {β : Type} (f : Dicts → β → Dicts) (P : β → Prop) (k : ℕ × ℕ) :
    ∀ (l : List β), (∀ b ∈ l, ∀ t, ((f t b).d k).isSome = true ↔ (t.d k).isSome = true ∨ P b) →
      ∀ t, ((l.foldl f t).d k).isSome = true ↔ (t.d k).isSome = true ∨ ∃ b ∈ l, P b
  | [], _, t => by simp
  | b :: l, h, t => by
    rw [List.foldl_cons, foldl_some f P k l (fun c hc => h c (by simp [hc])),
      h b (by simp)]
    simp [or_assoc]

/-- No layer has an admissible pair with both properties stored. -/
theorem noEntries_iff (p_ijk : XR → XR → XR → XR → XR) (n L : ℕ) (θ : ℕ → XR)
    (po pi : ℕ → List (ℕ × XR)) (dyad : ℕ → ℕ → XR) (s : Bool) :
    noEntries p_ijk n L θ po pi dyad s = true ↔
      ∀ k < L, ∀ e ∈ Law.pairs n s, k ∉ (po e.1).map Prod.fst ∨ k ∉ (pi e.2).map Prod.fst := by
  have key : ∀ k i, ((Layer.Spark.exp_degrees_layer p_ijk (θ k) (column n po k) (column n pi k)
      dyad s k).d (i, k)).isSome = true ↔ ∃ a ∈ column n po k, ∃ b ∈ column n pi k,
        admissible a.1 b.1 s = true ∧ (i = a.1 ∨ i = b.1) := by
    intro k i
    unfold Layer.Spark.exp_degrees_layer
    rw [foldl_some _ (fun a => ∃ b ∈ column n pi k, admissible a.1 b.1 s = true ∧
      (i = a.1 ∨ i = b.1)) (i, k)]
    · simp
    · intro a _ t
      rw [foldl_some _ (fun b => admissible a.1 b.1 s = true ∧ (i = a.1 ∨ i = b.1)) (i, k)]
      intro b _ t
      rw [spark_step_some]
      simp
  unfold noEntries
  simp only [List.all_eq_true, List.mem_range]
  constructor
  · intro h k hk e he
    rw [Law.mem_pairs] at he
    by_contra hc
    push Not at hc
    obtain ⟨⟨a, ha, ha'⟩, ⟨b, hb, hb'⟩⟩ := And.intro (List.mem_map.1 hc.1) (List.mem_map.1 hc.2)
    have h1 := h k hk e.1 he.1
    rw [Option.isNone_iff_eq_none, ← Option.not_isSome_iff_eq_none] at h1
    refine h1 ((key k e.1).2 ⟨(e.1, a.2), mem_column.2 ⟨he.1, by rw [← ha']; exact ha⟩,
      (e.2, b.2), mem_column.2 ⟨he.2.1, by rw [← hb']; exact hb⟩, ?_, Or.inl rfl⟩)
    simpa [admissible, or_comm] using he.2.2
  · intro h k hk i _
    rw [Option.isNone_iff_eq_none, ← Option.not_isSome_iff_eq_none, key]
    rintro ⟨a, ha, b, hb, hadm, -⟩
    rw [mem_column] at ha hb
    rcases h k hk (a.1, b.1) (Law.mem_pairs.2 ⟨ha.1, hb.1, by
      simpa [admissible, or_comm] using hadm⟩) with h1 | h1
    · exact h1 (List.mem_map.2 ⟨_, ha.2, rfl⟩)
    · exact h1 (List.mem_map.2 ⟨_, hb.2, rfl⟩)

end Layer.Cached

end

end Verif
